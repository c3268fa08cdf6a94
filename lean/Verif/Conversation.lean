import Verif.GrammarSyntax
import Verif.Generator
import Verif.Pipeline

/-!
# Conversations: question, answer, question, ...

Models `richard/core/DialogTester.py` (without logging and profiling), `richard/core/System.py:53-54` and the write grammar
`richard/grammar/en_us_write.py`.
-/

namespace Verif

/-- The keys of a rule as written by the programmer that count in a write grammar (`SimpleGrammarRulesParser.py:55,61-63,69-71,77-79,86-87`
with `write_rules`): `syn`, `if`, `format`, `post` and `boost`. The key `dialog` is not used by the generator and left out. -/
structure WriteDict where
  syn : Option Str
  cond : Option (List Value)
  format : Option (List Value → Except Err Value)
  post : Option (Value → Except Err Value)
  boost : Option Int

/-- Models `richard/processor/parser/helper/SimpleGrammarRulesParser.py:60-87` with `write_rules`: a missing condition is `None`, which the
generator treats as an empty one (`richard/core/BasicGenerator.py:113`). -/
def WriteDict.rule (d : WriteDict) : SimpleRule WriteSem := ⟨d.syn, .user ⟨d.cond.getD [], d.format, d.post⟩, d.boost⟩

/-- Models `richard/processor/parser/helper/SimpleGrammarRulesParser.py:40-41` (`parse_write_grammar`). -/
def parseWriteGrammar (uni : Char → Bool) (H : Constituent → List Constituent → Nat) (ds : List WriteDict) : Except Err (Grammar WriteSem) :=
  parseGrammarRules uni H (ds.map WriteDict.rule) true

/-- The first rule of `richard/grammar/en_us_write.py:6-9`. -/
def notUnderstoodDict : WriteDict :=
  ⟨some
      ['s', '(', ')', ' ', '-', '>', ' ', '\'', 'S', 'o', 'r', 'r', 'y', ',', ' ', 'I', ' ', 'd', 'o', 'n', '\\', '\'', 't', ' ',
       'u', 'n', 'd', 'e', 'r', 's', 't', 'a', 'n', 'd', '\''],
    some [.tuple [.str "output_type", .str "not_understood"]], none, none, none⟩

/-- The second rule, `richard/grammar/en_us_write.py:10-13`. -/
def noSentenceDict : WriteDict :=
  ⟨some
      ['s', '(', ')', ' ', '-', '>', ' ', '\'', 'N', 'o', ' ', 's', 'e', 'n', 't', 'e', 'n', 'c', 'e', ' ', 'g', 'i', 'v', 'e',
       'n', '\''],
    some [.tuple [.str "output_type", .str "no_sentence"]], none, none, none⟩

/-- The third rule, `richard/grammar/en_us_write.py:14-17`. -/
def unknownWordDict : WriteDict :=
  ⟨some
      ['s', '(', ')', ' ', '-', '>', ' ', '\'', 'C', 'o', 'u', 'l', 'd', ' ', 'n', 'o', 't', ' ', 'u', 'n', 'd', 'e', 'r', 's',
       't', 'a', 'n', 'd', ':', '\'', ' ', 't', 'e', 'x', 't', '(', 'E', '1', ')'],
    some [.tuple [.str "output_type", .str "unknown_word"], .tuple [.str "output_unknown_word", .var "E1"]], none, none, none⟩

/-- Models `richard/grammar/en_us_write.py:4-18` (`get_en_us_write_grammar`). -/
def enUsWrite : List WriteDict := [notUnderstoodDict, noSentenceDict, unknownWordDict]

section
variable {W P : Type}

/-- One turn of a dialog: a new request goes through the pipeline, then the output is read, `richard/core/DialogTester.py:53,62,66-68`,
`richard/core/System.py:53-54`. The return value of `enter` is not used. The system has an output generator, with the write grammar `g`, of
which the calls are followed to depth `n`. -/
def turn (api : SolverApi W) (blocks : List (Block P W)) (g : Grammar WriteSem) (l : Lens W SimpleStore) (n : Nat) (text : Str) : M W Value :=
  fun w => match enter api blocks (Request.new text, w) with
    | .ok s _ => generateOutput api g l n s.2
    | .err s e => .err s.2 e
    | .oof => .oof

/-- Models `richard/core/DialogTester.py:44-80` (`do_run`): the turns one after the other; an output that is not the expected one is an
`AssertionError` (line 76). Simplified: expected outputs are values of the model. -/
def doRun (api : SolverApi W) (blocks : List (Block P W)) (g : Grammar WriteSem) (l : Lens W SimpleStore) (n : Nat) : List (Str × Value) → M W Unit
  | [] => pure ()
  | (question, expected) :: tests => do
    let output ← turn api blocks g l n question
    if output = expected then doRun api blocks g l n tests
    else M.throw (.exception "AssertionError")

end

end Verif

import Verif.Pipeline
import Verif.Earley
import Verif.Composer
import Verif.Optimizer

/-!
# The parser and the composer as processors of the pipeline

(`richard/processor/parser/BasicParser.py`, `richard/processor/semantic_composer/SemanticComposer.py`)
-/

namespace Verif

/-- What changes between and during sentences: the grammar of the parser (`richard/processor/parser/BasicParser.py:15`; parsing adds start
rules to it), the variable generator of the composer (`richard/processor/semantic_composer/SemanticComposer.py:23`), and the world that
the modules of the model act on. -/
structure Session (W : Type) where
  grammar : Grammar Attachment
  gen : Gen
  world : W

section
variable {W : Type}

/-- Run code that acts on the world only. Not a function of the code. -/
def inWorld {α : Type} (m : M W α) : M (Session W) α := fun s =>
  match m s.world with
  | .ok w a => .ok { s with world := w } a
  | .err w e => .err { s with world := w } e
  | .oof => .oof

/-- Run code that acts on the variable generator only. Not a function of the code. -/
def inGen {α : Type} (m : M Gen α) : M (Session W) α := fun s =>
  match m s.gen with
  | .ok g a => .ok { s with gen := g } a
  | .err g e => .err { s with gen := g } e
  | .oof => .oof

/-- The solver (`richard/core/Solver.py:22-38,163-174`), which acts on the world only. -/
def SolverApi.inSession (api : SolverApi W) : SolverApi (Session W) where
  solve v b := inWorld (api.solve v b)
  writeAtom v := inWorld (api.writeAtom v)

/-- The error type of the parser, `richard/core/constants.py:13-15`, `richard/processor/parser/earley/EarleyParser.py:26-39`. -/
def ParseError.type : ParseError → String
  | .none => ""
  | .unknownWord _ => "unknown_word"
  | .noSentence => "no_sentence"
  | .notUnderstood => "not_understood"

/-- The error arguments of the parser, `richard/processor/parser/earley/EarleyParser.py:27,35`. -/
def ParseError.args : ParseError → List Value
  | .unknownWord w => [.str (String.ofList w)]
  | _ => []

/-- Models `richard/processor/parser/BasicParser.py:29-41` (`process`). Exceptions leave the added start rules in place, as the code does. -/
def basicParser (i : Nat) (E : Oracles) (fuel depth : Nat) : Processor (Product (ParseTree Attachment)) (Session W) where
  id := i
  process := fun request s =>
    match basicParse E fuel depth s.grammar request.text with
    | (.ok (trees, e), g) => .ok { s with grammar := g } ⟨trees.map .parse, e.type, e.args⟩
    | (.err e, g) => .err { s with grammar := g } e
    | (.oof, _) => .oof

/-- Models `richard/processor/semantic_composer/optimizer/BasicQueryOptimizer.py:16-29` (`optimize`) with all the forms it lists. -/
def optimizeForms (mods : List (Module W)) (semantics : List Value) (roots : List String) : M W (List (String × Value)) := do
  let s1 ← M.lift (frontSort semantics)
  let s2 ← sortComposition mods s1
  pure [("Semantics", .list semantics), ("Names resolved", .list s1), ("Sorted by cost", .list s2), ("Isolated", .list (isolate s2 roots))]

/-- Models `richard/processor/semantic_composer/SemanticComposer.py:47-53`: the forms of the meaning. `optimizer` holds the modules of the
model of the optimizer, if there is one. -/
def composerForms (optimizer : Option (List (Module W))) (semantics : Value) (roots : List String) : M W (List (String × Value)) :=
  match optimizer with
  | none => pure [("Semantics", semantics)]
  | some mods => match semantics with
    | .list atoms => optimizeForms mods atoms roots
    | _ => M.throw (.exception "Sentence semantics is not a list of atoms")

/-- Models `richard/processor/semantic_composer/SemanticComposer.py:37-56` (`process`). A current product that is no parse tree, or none, is
an `AttributeError`. -/
def semanticComposer (i parser : Nat) (optimizer : Option (List (Module W))) : Processor (Product (ParseTree Attachment)) (Session W) where
  id := i
  process := fun request =>
    match request.current parser with
    | some (.parse tree) => do
      let p ← inGen (composeSentence tree)
      let forms ← inWorld (composerForms optimizer p.2.sem p.1)
      pure ⟨[.composed ⟨forms, p.2.inferences, .list p.2.executable, p.1⟩], "", []⟩
    | _ => M.throw .attributeError

/-- The pipeline of `tests/integration/hello_world/test.py:76-80`, as in the other tests and the documentation: parser, composer and executor,
the first in a `FindOne` block, the others in `TryFirst` blocks. -/
def sentencePipeline (E : Oracles) (fuel depth : Nat) (optimizer : Option (List (Module W))) (api : SolverApi W) :
    List (Block (Product (ParseTree Attachment)) (Session W)) :=
  [⟨.findOne, basicParser 0 E fuel depth⟩, ⟨.tryFirst, semanticComposer 1 0 optimizer⟩, ⟨.tryFirst, atomExecutor 2 1 api.inSession⟩]

end

end Verif

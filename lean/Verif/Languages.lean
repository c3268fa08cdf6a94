import Verif.Conversation
import Verif.Processors

/-!
# Systems with several languages

`richard/processor/language_selector/*.py` together with parsers, composer and executor. Every language has its own parser, with its own grammar.
-/

namespace Verif

/-- What a system with several languages holds from one sentence to the next: the grammars of the parsers (`richard/processor/parser/BasicParser.py:19-22`)
in `processors` of `richard/processor/language_selector/Multilingual.py:14,17-20`, the variable generator of the composer, and the modules. Like `Session`; the
grammars are by locale, those of locales without a parser are not used. -/
structure Sessions (W : Type) where
  grammars : String → Grammar Attachment
  gen : Gen
  world : W

section
variable {W : Type}

/-- The session with the parser of one locale. Not a function of the code. -/
def Sessions.at (s : Sessions W) (l : String) : Session W := ⟨s.grammars l, s.gen, s.world⟩

/-- After the parser of one locale has been used. Not a function of the code. -/
def Sessions.back (s : Sessions W) (l : String) (s' : Session W) : Sessions W :=
  ⟨fun l' => if l' = l then s'.grammar else s.grammars l', s'.gen, s'.world⟩

/-- Run code with the parser of one locale. Not a function of the code. -/
def inLocale {α : Type} (l : String) (m : M (Session W) α) : M (Sessions W) α := fun s =>
  match m (s.at l) with
  | .ok s' a => .ok (s.back l s') a
  | .err s' e => .err (s.back l s') e
  | .oof => .oof

/-- A processor that uses the parser of one locale, or no parser at all. Not a function of the code. -/
def Processor.inLocale {P : Type} (p : Processor P (Session W)) (l : String) : Processor P (Sessions W) where
  id := p.id
  process := fun request => Verif.inLocale l (p.process request)

/-- The solver, which uses no parser. Not a function of the code. -/
def SolverApi.inLocales (api : SolverApi W) : SolverApi (Sessions W) where
  solve v b := inLocale "" (inWorld (api.solve v b))
  writeAtom v := inLocale "" (inWorld (api.writeAtom v))

/-- A part of the world, as a part of the session. Not a function of the code. -/
def Lens.inLocales {S : Type} (l : Lens W S) : Lens (Sessions W) S :=
  ⟨fun s => l.get s.world, fun x s => { s with world := l.put x s.world }, fun x s => l.get_put x s.world,
   fun s => by simp [l.put_get], fun x y s => by simp [l.put_put]⟩

/-- The pipeline of `tests/unit/Multilingual_test.py:41-48`, followed by the composer and the executor as in `tests/integration/hello_world/test.py:76-80`:
`locales` are those of the selector (`richard/processor/language_selector/LanguageSelector.py:15-17`), `available` those with a parser
(`richard/processor/language_selector/Multilingual.py:17-20`). The composer uses the product of the multilingual parser. -/
def languagesPipeline (locales available : List String) (E : Oracles) (fuel depth : Nat) (optimizer : Option (List (Module W))) (api : SolverApi W) :
    List (Block (Product (ParseTree Attachment)) (Sessions W)) :=
  [⟨.findOne, languageSelector 3 locales⟩,
   ⟨.findOne, multilingual 0 (available.map fun l => (l, (basicParser 0 E fuel depth).inLocale l)) 3⟩,
   ⟨.tryFirst, (semanticComposer 1 0 optimizer).inLocale ""⟩,
   ⟨.tryFirst, atomExecutor 2 1 api.inLocales⟩]

end

end Verif

import Verif.Processors
import Verif.Conversation
import Verif.InferenceSyntax
import Verif.Core
import Verif.Inference
import Verif.Runs.Texts

/-!
# Running the model on the project's own dialogs

The modules in this directory are tests of the model, not proofs: they encode systems of `tests/integration` on top of the model (grammars,
modules, rule files, tables) and run their dialogs, to see whether the model gives the replies that the project's tests ask of the code.
`tools/runs.sh` compiles and runs them. No theorem depends on these modules.

This module has what the systems share.
-/

namespace Verif.Runs

/-- The atom `(p, ...args)`. -/
def atom (p : String) (args : List Value) : Value := .tuple (.str p :: args)

/-- A list. -/
def l (xs : List Value) : Value := .list xs

/-- The elements of a list, for Python's `+` on lists. -/
def ls : Value → Except Err (List Value)
  | .list xs => .ok xs
  | _ => .error .typeError

/-- A text, for Python's `+` on texts. -/
def str : Value → Except Err String
  | .str s => .ok s
  | _ => .error .typeError

/-- A function of a grammar rule (`"sem"`, `"format"`). -/
abbrev Sem := List Value → Except Err Value

/-- `lambda: v`. -/
def s0 (v : Value) : Sem := fun a => match a with
  | [] => .ok v
  | _ => .error .typeError
/-- `lambda x: ...`. -/
def s1 (f : Value → Except Err Value) : Sem := fun a => match a with
  | [x] => f x
  | _ => .error .typeError
/-- `lambda x, y: ...`. -/
def s2 (f : Value → Value → Except Err Value) : Sem := fun a => match a with
  | [x, y] => f x y
  | _ => .error .typeError
/-- `lambda x, y, z: ...`. -/
def s3 (f : Value → Value → Value → Except Err Value) : Sem := fun a => match a with
  | [x, y, z] => f x y z
  | _ => .error .typeError
/-- A function of four arguments. -/
def s4 (f : Value → Value → Value → Value → Except Err Value) : Sem := fun a => match a with
  | [x, y, z, u] => f x y z u
  | _ => .error .typeError
/-- A function of five arguments. -/
def s5 (f : Value → Value → Value → Value → Value → Except Err Value) : Sem := fun a => match a with
  | [x, y, z, u, v] => f x y z u v
  | _ => .error .typeError
/-- A function of six arguments. -/
def s6 (f : Value → Value → Value → Value → Value → Value → Except Err Value) : Sem := fun a => match a with
  | [x, y, z, u, v, w] => f x y z u v w
  | _ => .error .typeError

/-- `lambda x, y: x + y` on lists. -/
def plus (a b : Value) : Except Err Value := do return l ((← ls a) ++ (← ls b))

/-- A rule with `"syn"` and `"sem"`. -/
def r (syn : String) (sem : Sem) : SimpleRule Attachment := ⟨some syn.toList, .user { sem := some sem }, none⟩

/-- A rule with a constant `"dialog"` as well. -/
def rd (syn : String) (sem : Sem) (dialog : List Value) : SimpleRule Attachment :=
  ⟨some syn.toList, .user { sem := some sem, dialog := fun _ => .ok dialog }, none⟩

/-- A rule with a `"boost"` as well. -/
def rb (syn : String) (sem : Sem) (boost : Int) : SimpleRule Attachment := ⟨some syn.toList, .user { sem := some sem }, some boost⟩

/-- A write rule with `"syn"` and `"if"`. -/
def wr (syn : String) (cond : List Value) : WriteDict := ⟨some syn.toList, some cond, none, none, none⟩

/-- `('output_type', s)`. -/
def ot (s : String) : Value := atom "output_type" [.str s]

/-- `richard/core/constants.py:29`. -/
def E1 : Value := .var "E1"
/-- `richard/core/constants.py:30`. -/
def E2 : Value := .var "E2"
/-- `richard/core/constants.py:31`. -/
def E3 : Value := .var "E3"
/-- `richard/core/constants.py:32`. -/
def E4 : Value := .var "E4"
/-- `richard/core/constants.py:36`. -/
def e1 : Value := .rvar "E1"
/-- `richard/core/constants.py:37`. -/
def e2 : Value := .rvar "E2"
/-- `richard/core/constants.py:38`. -/
def e3 : Value := .rvar "E3"

/-- `", ".join(...)`. -/
def joinComma : List String → String
  | [] => ""
  | [x] => x
  | x :: xs => x ++ ", " ++ joinComma xs

/-- `\w`, for ASCII texts. -/
def isW (c : Char) : Bool := c.isAlphanum || c == '_'

/-- The length of the longest start of characters `p`, at least one. -/
def longest (p : Char → Bool) (s : List Char) : Option Nat := match (s.takeWhile p).length with
  | 0 => none
  | n => some n

/-- A number for a constituent. -/
def hashC (c : Constituent) : Nat := (hash (String.ofList c.predicate ++ "(" ++ ",".intercalate (c.args.map String.ofList) ++ ")")).toNat

/-- Python's library functions, for ASCII texts, with the given regular expressions. -/
def oracles (regex : List Char → List Char → Option Nat) : Oracles where
  ruleHash a cs := (hash (hashC a, cs.map hashC)).toNat
  stateHash a b c d := (hash (a, b, c, d)).toNat
  lower s := s.map Char.toLower
  regex := regex

/-- The word characters beyond ASCII, which do not occur here. -/
def uni : Char → Bool := fun _ => true

/-- `richard/module/InferenceModule.py:33-41` (`import_rules`) on the text of a file. -/
def importRules (text : String) (s : InfState) : Except String InfState :=
  match parseRuleText uni 100000 text.toList with
  | .ok (some rules) => rules.foldlM (fun s rule => match insertRule rule s with
    | .ok s => .ok s
    | .error _ => .error "rule") s
  | _ => .error "rules"

/-- The output buffer of the world, in the session. -/
def sessionOut {W : Type} (o : Lens W SimpleStore) : Lens (Session W) SimpleStore where
  get s := o.get s.world
  put x s := { s with world := o.put x s.world }
  get_put _ _ := o.get_put _ _
  put_get s := by
    show { s with world := o.put (o.get s.world) s.world } = s
    rw [o.put_get]
  put_put x y s := by
    show { s with world := o.put x (o.put y s.world) } = { s with world := o.put x s.world }
    rw [o.put_put]

/-- A system of `tests/integration`, `richard/core/System.py:19-35`. -/
structure Sys (W : Type) where
  read : List (SimpleRule Attachment)
  write : List WriteDict
  regex : List Char → List Char → Option Nat
  modules : List (Module W)
  out : Lens W SimpleStore
  first : BlockKind := .findOne

variable {W : Type}

/-- Depth to which the calls of the solver are followed. -/
def depth : Nat := 200

/-- The pipeline: parser, composer with optimizer, executor. -/
def Sys.blocks (s : Sys W) : List (Block (Product (ParseTree Attachment)) (Session W)) :=
  [⟨s.first, basicParser 0 (oracles s.regex) 10000 1000⟩, ⟨.tryFirst, semanticComposer 1 0 (some (modelOf s.modules))⟩,
   ⟨.tryFirst, atomExecutor 2 1 (solverAt (modelOf s.modules) depth).inSession⟩]

/-- The grammars of the system, and the session that it starts with. -/
def Sys.start (s : Sys W) (w : W) : Except String (Session W × Grammar WriteSem) :=
  match parseGrammarRules uni (oracles s.regex).ruleHash s.read false, parseWriteGrammar uni (oracles s.regex).ruleHash (enUsWrite ++ s.write) with
  | .ok rg, .ok wg => .ok (⟨rg, ⟨0, []⟩, w⟩, wg)
  | .error _, _ => .error "read grammar"
  | _, .error _ => .error "write grammar"

/-- The dialog with `richard/core/DialogTester.py:44-80`, as in the tests: the world afterwards, when all replies are those expected. -/
def Sys.test (s : Sys W) (tests : List (String × Value)) (w : W) : Option W :=
  match s.start w with
  | .error _ => none
  | .ok (start, wg) =>
    match doRun (solverAt (modelOf s.modules) depth).inSession s.blocks wg (sessionOut s.out) 100 (tests.map fun t => (t.1.toList, t.2)) start with
    | .ok end_ _ => some end_.world
    | _ => none

/-- The same dialog with a report per sentence; the number of sentences with another reply, and the world. -/
def Sys.play (s : Sys W) (tests : List (String × Value)) (w : W) : IO (Nat × W) := do
  match s.start w with
  | .error e => IO.println s!"no {e}"; return (1, w)
  | .ok (start, wg) =>
    let mut session := start
    let mut bad := 0
    for (question, expected) in tests do
      match turn (solverAt (modelOf s.modules) depth).inSession s.blocks wg (sessionOut s.out) 100 question.toList session with
      | .ok next reply =>
        if reply = expected then IO.println s!"  ok {question}"
        else
          bad := bad + 1
          IO.println s!"  OTHER {question}: {repr reply} instead of {repr expected}"
        session := next
      | .err next e =>
        bad := bad + 1
        IO.println s!"  ERROR {question}: {repr e}"
        session := next
      | .oof =>
        bad := bad + 1
        IO.println s!"  TOO DEEP {question}"
    return (bad, session.world)

end Verif.Runs

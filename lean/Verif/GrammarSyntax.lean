import Verif.Lexer
import Verif.Monad

/-!
# The notation of grammar rules

Models `richard/processor/parser/helper/SimpleGrammarRulesParser.py` and `richard/module/GrammarModule.py`. Functions that get the list of tokens
and a position are given the tokens from that position on.
-/

namespace Verif

section
variable (uni : Char → Bool)

/-- `re_tokens`, `SimpleGrammarRulesParser.py:18-31`. -/
def grammarMatchers : List Matcher :=
  [mLit ['?'], mLit [','], mLit ['-', '>'], mLit ['('], mLit [')'], mQuoted '/', mQuoted '\'', mQuoted '"', mVar uni, mWord uni, mLit ['+'],
   mLit ['~']]

/-- `re.match(self.re_identifier, token)`, `SimpleGrammarRulesParser.py:32`. Simplified: `$` does not match before a final newline (no token of
word characters has one). -/
def isIdentTok (t : Str) : Bool := t ≠ [] && t.all (isWordChar uni)

/-- `re.match(self.re_variable, token)`, `SimpleGrammarRulesParser.py:33`. -/
def isVarTok : Str → Bool
  | c :: r => c.isUpper && r.all (isWordChar uni)
  | [] => false

/-- The loop of `SimpleGrammarRulesParser.py:213-225`: the variables and the tokens that follow. -/
def parseVars : List Str → List Str × List Str
  | [] => ([], [])
  | [t] => if isVarTok uni t then ([t], []) else ([], [t])
  | t :: t2 :: ts =>
    if isVarTok uni t then
      if t2 = [','] then (t :: (parseVars ts).1, (parseVars ts).2) else ([t], t2 :: ts)
    else ([], t :: t2 :: ts)

/-- Models `SimpleGrammarRulesParser.py:202-232` (`parse_atom`). -/
def parseGrammarAtom : List Str → Option (Constituent × List Str)
  | p :: o :: ts =>
    if isIdentTok uni p then
      if o = ['('] then
        match (parseVars uni ts).2 with
        | c :: rest => if c = [')'] then some (⟨p, (parseVars uni ts).1, .relation, false, false⟩, rest) else none
        | [] => none
      else none
    else none
  | _ => none

/-- Models `SimpleGrammarRulesParser.py:174-183` (`parse_regexp`). An empty text counts as not found (line 124). -/
def parseRegexp : List Str → Option (Str × List Str)
  | ('/' :: t) :: ts => match unescape '/' (inner ('/' :: t)) with
    | [] => none
    | s => some (s, ts)
  | _ => none

/-- Models `SimpleGrammarRulesParser.py:186-199` (`parse_string`). An empty text counts as not found (line 131). -/
def parseString : List Str → Option (Str × List Str)
  | (q :: t) :: ts =>
    if q = '\'' ∨ q = '"' then
      match unescape q (inner (q :: t)) with
      | [] => none
      | s => some (s, ts)
    else none
  | _ => none

/-- Models `SimpleGrammarRulesParser.py:247-256` (`parse_optional_marker`): whether there is a marker, and the tokens after it. -/
def parseOptional : List Str → Bool × List Str
  | t :: ts => if t = ['?'] then (true, ts) else (false, t :: ts)
  | [] => (false, [])

/-- One constituent, `SimpleGrammarRulesParser.py:110-142`. -/
def parseItem (write : Bool) (ts : List Str) : Option (Constituent × List Str) :=
  match parseGrammarAtom uni ts with
  | some (atom, rest) =>
    if write then some ({ atom with optional := (parseOptional rest).1 }, (parseOptional rest).2) else some (atom, rest)
  | none => match parseRegexp ts with
    | some (s, rest) => some (⟨s, [], .regexp, false, false⟩, rest)
    | none => match parseString ts with
      | some (s, rest) => some (⟨s, [], .word, (parseOptional rest).1, false⟩, (parseOptional rest).2)
      | none => none

/-- The loop of `SimpleGrammarRulesParser.py:108-154`, at most `n` times: the consequents and the tokens that are left. -/
def parseItems (write : Bool) : Nat → List Str → List Constituent × List Str
  | 0, ts => ([], ts)
  | n + 1, ts =>
    match parseItem uni write ts with
    | none => ([], ts)
    | some (c, []) => ([c], [])
    | some (c, t :: rest) =>
      if t = ['+'] then (c :: (parseItems write n rest).1, (parseItems write n rest).2)
      else if t = ['~'] then (c :: ⟨[' '], [], .word, true, true⟩ :: (parseItems write n rest).1, (parseItems write n rest).2)
      else (c :: ⟨[' '], [], .word, false, true⟩ :: (parseItems write n (t :: rest)).1, (parseItems write n (t :: rest)).2)

/-- Models `SimpleGrammarRulesParser.py:92-159` (`parse_syntax`). Each round of the loop takes at least one token, so it ends within as many rounds
as there are tokens. -/
def parseSyntax (syntaxText : Str) (write : Bool) : Except Err (Constituent × List Constituent) :=
  let tokens := findall (grammarMatchers uni) syntaxText
  match parseGrammarAtom uni tokens with
  | none => .error (.exception "Could not parse antecedent")
  | some (_, []) => .error (.exception "Missing -> operator in 'syn' value")
  | some (ante, t :: rest) =>
    if t ≠ ['-', '>'] then .error (.exception "Missing -> operator in 'syn' value")
    else
      let r := parseItems uni write (rest.length + 1) rest
      if r.2 ≠ [] then .error (.exception "Could not complete parsing the consequents") else .ok (ante, r.1)

end

/-- A rule as written by the programmer: `richard/type/SimpleGrammarRule.py`, a dictionary with the optional keys `syn`, `boost` and the semantics. -/
structure SimpleRule (A : Type) where
  syn : Option Str
  sem : RuleSem A
  boost : Option Int

section
variable {A : Type} (uni : Char → Bool) (H : Constituent → List Constituent → Nat)

/-- Models `SimpleGrammarRulesParser.py:54-89` (`parse_simple_rule`). The functions and options of the rule are kept together in `sem`. -/
def parseSimpleRule (r : SimpleRule A) (write : Bool) : Except Err (GRule A) :=
  match r.syn with
  | none => .error (.exception "A rule must contain a 'syn' value")
  | some s => match parseSyntax uni s write with
    | .error e => .error e
    | .ok (ante, cons) => .ok (GRule.new H ante cons r.sem (r.boost.getD 0))

/-- The loop of `SimpleGrammarRulesParser.py:47-49`. -/
def parseSimpleRules (write : Bool) : List (SimpleRule A) → Except Err (List (GRule A))
  | [] => .ok []
  | r :: rs => match parseSimpleRule uni H r write with
    | .error e => .error e
    | .ok x => match parseSimpleRules write rs with
      | .error e => .error e
      | .ok xs => .ok (x :: xs)

/-- Models `SimpleGrammarRulesParser.py:44-51` (`parse_grammar`). -/
def parseGrammarRules (rs : List (SimpleRule A)) (write : Bool) : Except Err (Grammar A) :=
  match parseSimpleRules uni H write rs with
  | .error e => .error e
  | .ok xs => .ok (Grammar.new xs)

/-- A positional argument of a call of `parse_simple_rule`. -/
inductive CallArg (A : Type) where
  | rule (r : SimpleRule A)
  | flag (b : Bool)

/-- A call of `SimpleGrammarRulesParser.py:54` with positional arguments: Python raises a `TypeError` when their number is not that of the
parameters. -/
def callParseSimpleRule : List (CallArg A) → Except Err (GRule A)
  | [.rule r, .flag b] => parseSimpleRule uni H r b
  | _ => .error .typeError

/-- Models `richard/module/GrammarModule.py:28-36` (`learn_grammar_rule`): the grammar is the world. Line 31 passes the rule only. -/
def learnGrammarRule (r : SimpleRule A) : M (Grammar A) (List (List Unit)) := do
  let rule ← M.lift (callParseSimpleRule uni H [.rule r])
  M.modify fun g => g.addRule rule
  pure [[()]]

end

end Verif

import Verif.Lexer
import Verif.Digits
import Verif.Inference
import Verif.Earley

/-!
# The notation of inference rules

Models `richard/module/helper/SimpleInferenceRuleParser.py`. Functions that get the list of tokens and a position are given the tokens from that
position on; the positions returned with `None` are left out. The parser backtracks; `n` bounds the depth of the calls.
-/

namespace Verif

section
variable (uni : Char → Bool)

/-- `re_tokens`, `SimpleInferenceRuleParser.py:16-30`. -/
def ruleMatchers : List Matcher :=
  [mLit ['.'], mLit [','], mLit [';'], mLit [':', '-'], mLit ['('], mLit [')'], mFloat, mInt, mQuoted '\'', mQuoted '"', mVar uni, mWord uni,
   mComment]

/-- Models `SimpleInferenceRuleParser.py:268-277` (`parse_token`): the next token that is not a comment, and the tokens after it. -/
def nextTok : List Str → Option (Str × List Str)
  | [] => none
  | ('#' :: _) :: ts => nextTok ts
  | t :: ts => some (t, ts)

/-- `re_identifier`, `SimpleInferenceRuleParser.py:31`. -/
def isRuleIdent (t : Str) : Bool := t ≠ [] && t.all (isWordChar uni)

/-- `re_variable`, `SimpleInferenceRuleParser.py:32`. -/
def isRuleVar : Str → Bool
  | c :: r => c.isUpper && r.all (isWordChar uni)
  | [] => false

/-- `re_int`, `SimpleInferenceRuleParser.py:34`. -/
def isIntTok (t : Str) : Bool := t ≠ [] && t.all Char.isDigit

/-- `re_float`, `SimpleInferenceRuleParser.py:33`. -/
def isFloatTok (t : Str) : Bool :=
  match t.dropWhile Char.isDigit with
  | '.' :: f => isIntTok (t.takeWhile Char.isDigit) && isIntTok f
  | _ => false

/-- `int(token)`, `SimpleInferenceRuleParser.py:254`. -/
def readInt (t : Str) : Value := .num (readNat t : Rat)

/-- `float(token)`, `SimpleInferenceRuleParser.py:250`. Simplified: floats are exact. -/
def readFloat (t : Str) : Value :=
  let f := (t.dropWhile Char.isDigit).tail
  .num ((readNat (t.takeWhile Char.isDigit) : Rat) + (readNat f : Rat) / ((10 ^ f.length : Nat) : Rat))

/-- `not term` in Python. -/
def falsy : Value → Bool
  | .none => true
  | .num q => decide (q = 0)
  | .str s => decide (s = "")
  | .list vs => vs.isEmpty
  | .tuple vs => vs.isEmpty
  | _ => false

/-- A token that is a term by itself, `SimpleInferenceRuleParser.py:240-258`. -/
def tokenTerm (t : Str) : Option Value :=
  if t.head? = some '\'' then some (.str (String.ofList (unescape '\'' (inner t))))
  else if t.head? = some '"' then some (.str (String.ofList (unescape '"' (inner t))))
  else if isFloatTok t then some (readFloat t)
  else if isIntTok t then some (readInt t)
  else if isRuleVar uni t then some (.var (String.ofList t))
  else none

mutual
/-- Models `SimpleInferenceRuleParser.py:238-265` (`parse_term`); at the end of the tokens `token[0]` is a `TypeError`. -/
def parseTerm : Nat → List Str → Out (Option (Value × List Str))
  | 0, _ => .oof
  | n + 1, ts => match nextTok ts with
    | none => .err .typeError
    | some (t, rest) => match tokenTerm uni t with
      | some v => .ok (some (v, rest))
      | none => (parseAtoms n ts).bind fun r => match r with
        | some (as, rest) => .ok (some (.list as, rest))
        | none => .ok none
/-- The loop of `SimpleInferenceRuleParser.py:203-215`. -/
def parseTerms : Nat → List Str → Out (List Value × List Str)
  | 0, _ => .oof
  | n + 1, ts => (parseTerm n ts).bind fun r => match r with
    | none => .ok ([], ts)
    | some (v, rest) =>
      if falsy v then .ok ([], ts)
      else match nextTok rest with
        | none => .ok ([v], rest)
        | some (t, rest2) =>
          if t = [','] then (parseTerms n rest2).bind fun r => .ok (v :: r.1, r.2)
          else .ok ([v], rest)
/-- Models `SimpleInferenceRuleParser.py:192-222` (`parse_simple_atom`). -/
def parseSimpleAtom : Nat → List Str → Out (Option (List Value × List Str))
  | 0, _ => .oof
  | n + 1, ts => match nextTok ts with
    | none => .ok none
    | some (p, r1) =>
      if isRuleIdent uni p then
        match nextTok r1 with
        | none => .ok none
        | some (o, r2) =>
          if o = ['('] then (parseTerms n r2).bind fun r => match nextTok r.2 with
            | none => .ok none
            | some (c, r4) => if c = [')'] then .ok (some (.str (String.ofList p) :: r.1, r4)) else .ok none
          else .ok none
      else .ok none
/-- Models `SimpleInferenceRuleParser.py:88-99` (`parse_atoms`). -/
def parseAtoms : Nat → List Str → Out (Option (List Value × List Str))
  | 0, _ => .oof
  | n + 1, ts => (parseGrouped n ts).bind fun r => match r with
    | some x => .ok (some x)
    | none => parseUngrouped n ts
/-- Models `SimpleInferenceRuleParser.py:103-119` (`parse_ungrouped_atoms`). -/
def parseUngrouped : Nat → List Str → Out (Option (List Value × List Str))
  | 0, _ => .oof
  | n + 1, ts => (parseRuleAtom n ts).bind fun r => match r with
    | none => .ok none
    | some (a, rest) => match nextTok rest with
      | none => .ok (some ([a], rest))
      | some (t, rest2) =>
        if t = [','] then (parseUngrouped n rest2).bind fun r => match r with
          | none => .ok none
          | some (as, rest3) => .ok (some (a :: as, rest3))
        else .ok (some ([a], rest))
/-- Models `SimpleInferenceRuleParser.py:123-139` (`parse_grouped_atoms`). -/
def parseGrouped : Nat → List Str → Out (Option (List Value × List Str))
  | 0, _ => .oof
  | n + 1, ts => match nextTok ts with
    | none => .ok none
    | some (o, r1) =>
      if o = ['('] then (parseAtoms n r1).bind fun r => match r with
        | none => .ok none
        | some (as, r2) => match nextTok r2 with
          | none => .ok none
          | some (c, r3) => if c = [')'] then .ok (some (as, r3)) else .ok none
      else .ok none
/-- The loop of `SimpleInferenceRuleParser.py:151-162`: the alternatives of a disjunction. -/
def parseDisjuncts : Nat → List Str → Out (Option (List Value × List Str))
  | 0, _ => .oof
  | n + 1, ts => (parseAtoms n ts).bind fun r => match r with
    | none => .ok none
    | some (as, rest) => match nextTok rest with
      | none => .ok (some ([.list as], rest))
      | some (t, rest2) =>
        if t = [';'] then (parseDisjuncts n rest2).bind fun r => match r with
          | none => .ok none
          | some (ds, rest3) => .ok (some (.list as :: ds, rest3))
        else .ok (some ([.list as], rest))
/-- Models `SimpleInferenceRuleParser.py:143-171` (`parse_disjuncted_atom`). -/
def parseDisjuncted : Nat → List Str → Out (Option (Value × List Str))
  | 0, _ => .oof
  | n + 1, ts => match nextTok ts with
    | none => .ok none
    | some (o, r1) =>
      if o = ['('] then (parseDisjuncts n r1).bind fun r => match r with
        | none => .ok none
        | some (ds, r2) => match nextTok r2 with
          | none => .ok none
          | some (c, r3) => if c = [')'] then .ok (some (.tuple [.str "$disjunction", .list ds], r3)) else .ok none
      else .ok none
/-- Models `SimpleInferenceRuleParser.py:176-188` (`parse_atom`). -/
def parseRuleAtom : Nat → List Str → Out (Option (Value × List Str))
  | 0, _ => .oof
  | n + 1, ts => (parseSimpleAtom n ts).bind fun r => match r with
    | some (as, rest) => .ok (some (.tuple as, rest))
    | none => parseDisjuncted n ts
end

/-- The body of a rule, `SimpleInferenceRuleParser.py:67-74`: `[]` when there is no `:-`. -/
def parseBody (n : Nat) (ts : List Str) : Out (Option (List Value × List Str)) :=
  match nextTok ts with
  | none => .ok (some ([], ts))
  | some (t, rest) => if t = [':', '-'] then parseAtoms uni n rest else .ok (some ([], ts))

/-- Models `SimpleInferenceRuleParser.py:60-82` (`parse_rule`). -/
def parseRule (n : Nat) (ts : List Str) : Out (Option (Rule × List Str)) :=
  (parseSimpleAtom uni n ts).bind fun r => match r with
    | none => .ok none
    | some (head, r1) => (parseBody uni n r1).bind fun r => match r with
      | none => .ok none
      | some (body, r2) => match nextTok r2 with
        | none => .ok none
        | some (d, r3) => if d = ['.'] then .ok (some (⟨head, .list body⟩, r3)) else .ok none

/-- The loop of `SimpleInferenceRuleParser.py:43-49`: the rules and the tokens that are left. -/
def parseRules : Nat → List Str → Out (List Rule × List Str)
  | 0, _ => .oof
  | n + 1, ts => (parseRule uni n ts).bind fun r => match r with
    | none => .ok ([], ts)
    | some (rule, rest) => (parseRules n rest).bind fun r => .ok (rule :: r.1, r.2)

/-- Models `SimpleInferenceRuleParser.py:37-56` (`parse`): `none` when the text is not understood to its end. -/
def parseRuleText (n : Nat) (text : Str) : Out (Option (List Rule)) :=
  (parseRules uni n (findall (ruleMatchers uni) text)).bind fun r => match nextTok r.2 with
    | none => .ok (some r.1)
    | some _ => .ok none

end

end Verif

import Verif.Logging
import Verif.Inference

/-!
# Printed rules

Models the functions `__str__` of `richard/entity/GrammarRule.py`, `richard/entity/RuleConstituent.py` and `richard/type/InferenceRule.py`.
-/

namespace Verif

/-- Models `richard/entity/RuleConstituent.py:39-40` (`__str__`); the same text is built in `richard/entity/GrammarRule.py:55-60,67-72`. -/
def Constituent.text (c : Constituent) : Str := c.predicate ++ ['('] ++ joinText [',', ' '] c.args ++ [')']

/-- One consequent, `richard/entity/GrammarRule.py:66-76`. -/
def Constituent.itemText (c : Constituent) : Str :=
  match c.pos with
  | .relation => c.text
  | .word => ['\''] ++ c.predicate ++ ['\'']
  | .regexp => ['/'] ++ c.predicate ++ ['/']

/-- Models `richard/entity/GrammarRule.py:53-79` (`__str__`). -/
def GRule.text {A : Type} (r : GRule A) : Str := r.ante.text ++ [' ', '-', '>', ' '] ++ joinText [' '] (r.cons.map Constituent.itemText)

/-- Python's `str(value)`. -/
def strValue : Value → Str
  | .str s => s.toList
  | v => reprV v

/-- Models `richard/type/InferenceRule.py:11-15` (`__str__`). Simplified: a body that is no list raises a `TypeError`. -/
def Rule.text (r : Rule) : Except Err Str :=
  match r.body with
  | .list [] => .ok (strValue (.tuple r.head) ++ ['.'])
  | .list atoms => .ok (strValue (.tuple r.head) ++ [' ', ':', '-', ' '] ++ joinText [',', ' '] (atoms.map strValue) ++ ['.'])
  | _ => .error .typeError

end Verif

import Verif.Value
import Verif.Digits

/-!
# Python's `str()` of a row

`Solver.find_relation_values` deduplicates rows by `str(row)`.
-/

namespace Verif

/-- Lower-case hexadecimal digit. -/
def hexDigit (n : Nat) : Char :=
  if n < 10 then Char.ofNat (48 + n) else Char.ofNat (87 + n)

/-- `width` hexadecimal digits of `n`, most significant first. -/
def hexFixed : Nat → Nat → List Char
  | 0, _ => []
  | w + 1, n => hexFixed w (n / 16) ++ [hexDigit (n % 16)]

/-- Which characters Python prints as themselves (`str.isprintable`).
Simplified: printable ASCII plus everything from U+00A1 on except the soft hyphen; the theorem about
deduplication holds for any choice of this set. -/
def isPrintable (c : Char) : Bool :=
  (32 ≤ c.toNat && c.toNat < 127) || (161 ≤ c.toNat && c.toNat != 173)

/-- Python's escape of one character inside a quoted string with quote `q`.
Models the effect of `str(out_value)` in `richard/core/Solver.py:136` on the characters of strings inside the row. -/
def escChar (q c : Char) : List Char :=
  if c = '\\' then ['\\', '\\']
  else if c = q then ['\\', q]
  else if c = '\n' then ['\\', 'n']
  else if c = '\r' then ['\\', 'r']
  else if c = '\t' then ['\\', 't']
  else if isPrintable c then [c]
  else if c.toNat < 256 then ['\\', 'x'] ++ hexFixed 2 c.toNat
  else if c.toNat < 65536 then ['\\', 'u'] ++ hexFixed 4 c.toNat
  else ['\\', 'U'] ++ hexFixed 8 c.toNat

/-- Python's choice of the quote character. -/
def quoteFor (s : List Char) : Char :=
  if '\'' ∈ s ∧ '"' ∉ s then '"' else '\''

/-- `repr` of a string. -/
def reprStr (s : List Char) : List Char :=
  let q := quoteFor s
  q :: (s.flatMap (escChar q) ++ [q])

/-- Printed form of a number. Simplified: integers in decimal, as Python does; other rationals as `p/q`, standing for
Python's shortest round-trip form of a float (which is injective as well). -/
def reprNum (q : Rat) : List Char :=
  showInt q.num ++ (if q.den = 1 then [] else '/' :: showNat q.den)

/-- Words of the generated `__repr__` of the dataclasses (`richard/entity/ReifiedVariable.py`,
`richard/type/SemanticTemplate.py`), spelled out. -/
def wRvar : List Char := ['R', 'e', 'i', 'f', 'i', 'e', 'd', 'V', 'a', 'r', 'i', 'a', 'b', 'l', 'e']
@[inherit_doc wRvar] def wName : List Char := ['n', 'a', 'm', 'e', '=']
@[inherit_doc wRvar] def wTmpl : List Char := ['S', 'e', 'm', 'a', 'n', 't', 'i', 'c', 'T', 'e', 'm', 'p', 'l', 'a', 't', 'e']
@[inherit_doc wRvar] def wArgs : List Char := ['a', 'r', 'g', 's', '=', '[']
@[inherit_doc wRvar] def wBody : List Char := [',', ' ', 'b', 'o', 'd', 'y', '=', '[']

mutual
/-- `repr` of a value. Models `str(out_value)` in `richard/core/Solver.py:136`;
`Variable.__repr__` is `richard/entity/Variable.py:10-11`, the dataclasses `ReifiedVariable` and `SemanticTemplate`
use the generated `__repr__`. -/
def reprV : Value → List Char
  | .none => ['N', 'o', 'n', 'e']
  | .num q => reprNum q
  | .str s => reprStr s.toList
  | .var n => n.toList
  | .rvar n => wRvar ++ ('(' :: (wName ++ (reprStr n.toList ++ [')'])))
  | .list xs => '[' :: (reprItems xs ++ [']'])
  | .tuple xs => match xs with
    | [x] => '(' :: (reprV x ++ [',', ')'])
    | xs => '(' :: (reprItems xs ++ [')'])
  | .tmpl a b => wTmpl ++ ('(' :: (wArgs ++ (reprItems a ++ (']' :: (wBody ++ (reprItems b ++ [']', ')']))))))
/-- Comma separated items. -/
def reprItems : List Value → List Char
  | [] => []
  | x :: xs => match xs with
    | [] => reprV x
    | y :: ys => reprV x ++ (',' :: ' ' :: reprItems (y :: ys))
end

/-- `str(row)` for a row (a Python list). -/
def strRow (row : List Value) : List Char := '[' :: (reprItems row ++ [']'])

end Verif

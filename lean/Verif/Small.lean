import Verif.Digits

/-!
# Small data structures: `OrderedSet`, `ResultIterator`, white space
-/

namespace Verif

/-! ## OrderedSet (`richard/type/OrderedSet.py`) -/

/-- The keys of the dictionary `_d` in insertion order. Models `richard/type/OrderedSet.py:8-16`. Simplified: the hash of the elements is
left out, so elements are the same iff they are equal. -/
abbrev OSet (α : Type) := List α

namespace OSet
variable {α : Type} [DecidableEq α]

/-- Models `richard/type/OrderedSet.py:18-19` (`add`): a present key keeps its place. -/
def add (x : α) (s : OSet α) : OSet α := if x ∈ s then s else s ++ [x]

/-- Models `richard/type/OrderedSet.py:21-22` (`clear`). -/
def clear : OSet α := []

/-- Models `richard/type/OrderedSet.py:24-25` (`discard`). -/
def discard (x : α) (s : OSet α) : OSet α := s.filter fun y => decide (y ≠ x)

/-- Models `richard/type/OrderedSet.py:15-16` (`__init__`) on a list. -/
def new (xs : List α) : OSet α := xs.foldl (fun s x => add x s) []

/-- Models `richard/type/OrderedSet.py:27-31` (`__getitem__`) for `index ≥ 0`; `none` is an `IndexError`. -/
def getItem (s : OSet α) (i : Nat) : Option α := ((s.drop i).take 1).head?

/-- Models `richard/type/OrderedSet.py:33-34` (`__contains__`). -/
def contains (s : OSet α) (x : α) : Bool := decide (x ∈ s)

/-- Models `richard/type/OrderedSet.py:36-37` (`__len__`). -/
def len (s : OSet α) : Nat := s.length

/-- Models `richard/type/OrderedSet.py:39-40` (`__iter__`). -/
def iter (s : OSet α) : List α := s

end OSet

/-! ## ResultIterator (`richard/entity/ResultIterator.py`) -/

/-- Models `richard/entity/ResultIterator.py:7-14`; `single` is the printed form of `single_result`. Simplified: `number` is not
negative. -/
structure RIter where
  single : List Char
  number : Nat
  index : Nat

namespace RIter

/-- Models `richard/entity/ResultIterator.py:11-14` (`__init__`). -/
def new (single : List Char) (number : Nat) : RIter := ⟨single, number, 0⟩

/-- Models `richard/entity/ResultIterator.py:19-20` (`__len__`). -/
def len (r : RIter) : Nat := r.number

/-- Models `richard/entity/ResultIterator.py:22-26` (`__next__`); `none` is `StopIteration`. -/
def next (r : RIter) : Option (List Char) × RIter :=
  let r' := { r with index := r.index + 1 }
  if r'.index > r'.number then (none, r') else (some (r'.single ++ showNat r'.index), r')

/-- A `for` loop over the iterator that is left after at most `k` items: the items and the iterator afterwards. Python's iteration
protocol over `richard/entity/ResultIterator.py:16-26`. -/
def takeItems : Nat → RIter → List (List Char) × RIter
  | 0, r => ([], r)
  | k + 1, r => match next r with
    | (none, r') => ([], r')
    | (some x, r') => let (xs, r'') := takeItems k r'; (x :: xs, r'')

end RIter

/-! ## White space (`richard/processor/parser/BasicParser.py`) -/

/-- What `\s` matches in a Python `str` pattern: the characters for which `str.isspace` holds. -/
def isSpace (c : Char) : Bool :=
  let n := c.toNat
  (0x09 ≤ n && n ≤ 0x0d) || (0x1c ≤ n && n ≤ 0x20) || n == 0x85 || n == 0xa0 || n == 0x1680 || (0x2000 ≤ n && n ≤ 0x200a) ||
    n == 0x2028 || n == 0x2029 || n == 0x202f || n == 0x205f || n == 0x3000

/-- Models `re.sub('\s+', ' ', text)` in `richard/processor/parser/BasicParser.py:31`; the flag says that the text before is inside a
run that has been replaced already. -/
def normalizeFrom : Bool → List Char → List Char
  | _, [] => []
  | inRun, c :: cs =>
    if isSpace c then (if inRun then normalizeFrom true cs else ' ' :: normalizeFrom true cs)
    else c :: normalizeFrom false cs

/-- Models `richard/processor/parser/BasicParser.py:31`. -/
def normalizeSpace (text : List Char) : List Char := normalizeFrom false text

end Verif

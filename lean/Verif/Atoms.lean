import Verif.Value
import Verif.Dict

/-!
# Functions on atoms (`richard/core/atoms.py`)
-/

namespace Verif

/-- Bindings: variable name to value. Models the `dict` arguments of `richard/core/Solver.py`. -/
abbrev Binding := Dict Value

mutual
/-- Names of the variables in a construct, with repetitions, left to right.
Models `richard/core/atoms.py:27-36` (`get_atom_variables`); the Python function collects them in a `set`,
so order and multiplicity are irrelevant there. Templates and reified variables are not entered, as in Python. -/
def varsOf : Value → List String
  | .var n => [n]
  | .list xs => varsOfList xs
  | .tuple xs => varsOfList xs
  | _ => []
/-- Models `richard/core/atoms.py:39-45` (`get_atoms_variables`), and the loop over the elements of a list or tuple. -/
def varsOfList : List Value → List String
  | [] => []
  | x :: xs => varsOf x ++ varsOfList xs
end

mutual
/-- Models `richard/core/atoms.py:48-66` (`bind_variables`). -/
def bindVars (b : Binding) : Value → Value
  | .list xs => .list (bindVarsList b xs)
  | .tuple xs => .tuple (bindVarsList b xs)
  | .var n => match b.get n with
    | some v => v
    | none => .var n
  | v => v
/-- The list comprehension in `richard/core/atoms.py:51,54`. -/
def bindVarsList (b : Binding) : List Value → List Value
  | [] => []
  | x :: xs => bindVars b x :: bindVarsList b xs
end

theorem bindVarsList_eq_map (b : Binding) (xs : List Value) : bindVarsList b xs = xs.map (bindVars b) := by
  induction xs with
  | nil => rfl
  | cons x xs ih => simp [bindVarsList, ih]

theorem varsOfList_eq_flatMap (xs : List Value) : varsOfList xs = xs.flatMap varsOf := by
  induction xs with
  | nil => rfl
  | cons x xs ih => simp [varsOfList, ih]

theorem mem_varsOfList {n : String} {xs : List Value} : n ∈ varsOfList xs ↔ ∃ x ∈ xs, n ∈ varsOf x := by
  rw [varsOfList_eq_flatMap]; simp

end Verif

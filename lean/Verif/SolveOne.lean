import Verif.Solver

/-!
# Asking for one answer
-/

namespace Verif

variable {W : Type}

/-- Models `richard/interface/SomeSolver.py:11-13` (`solve1`): `result[0]` of a `ResultIterator`, which has no items to take by number, is a
`TypeError`. -/
def solve1 (api : SolverApi W) (atoms : Value) (b : Binding) : M W (Option Binding) := do
  match ← api.solve atoms b with
  | .rows bs => pure bs.head?
  | .iter _ 0 => pure none
  | .iter _ (_ + 1) => M.throw .typeError

end Verif

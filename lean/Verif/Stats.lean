import Verif.Logging
import Verif.Inference
import Verif.SqlMemory

/-!
# The statistics of the solver (`richard/core/Solver.py:14-19,45-49`)

The solver of `Verif.Solver` with its statistics. The dictionary `stats` is a part of the world, given by a lens.
-/

namespace Verif

/-- `Solver.stats`, `richard/core/Solver.py:14,19`: for each predicate how often it has been asked for. -/
abbrev Stats := Dict Nat

/-- Models `richard/core/Solver.py:47-49`. -/
def Stats.add (s : Stats) (p : String) : Stats :=
  let s := if s.has p then s else s.set p 0
  s.set p ((s.get p).getD 0 + 1)

section
variable {W : Type}

/-- Models `richard/core/Solver.py:46-49`, with `log` for `self.log_stats`. -/
def countCall (st : Lens W Stats) (log : Bool) (p : String) : M W Unit :=
  if log then M.modify fun w => st.put ((st.get w).add p) w else pure ()

/-- Models `richard/core/Solver.py:41-69` (`solve_single`), like `solveSingle`, with the statistics. -/
def solveSingleStats (st : Lens W Stats) (log : Bool) (api : SolverApi W) (mods : List (Module W)) (atom : Value) (b : Binding) : M W SolOut :=
  match atom with
  | .tuple (.str p :: args) => do
    countCall st log p
    solveSingle.go api mods b p args
  | .list (.str p :: args) => do
    countCall st log p
    solveSingle.go api mods b p args
  | .tuple [] => M.throw .indexError
  | .list [] => M.throw .indexError
  | _ => M.throw .typeError

/-- Models `richard/core/Solver.py:22-38` (`solve`) on a list of atoms, like `solveAtoms`, with the statistics. -/
def solveAtomsStats (st : Lens W Stats) (log : Bool) (api : SolverApi W) (mods : List (Module W)) : List Value → Binding → M W SolOut
  | [], b => pure (.rows [b])
  | [a], b => solveSingleStats st log api mods a b
  | a :: a2 :: rest, b => do
    match ← solveSingleStats st log api mods a b with
    | .rows bs => collect (solveAtomsStats st log api mods (a2 :: rest)) bs []
    | .iter _ 0 => pure (.rows [])
    | .iter _ (_ + 1) => M.throw .attributeError

/-- `solve` with the check of `richard/core/Solver.py:24-25`. -/
def solveValueStats (st : Lens W Stats) (log : Bool) (api : SolverApi W) (mods : List (Module W)) (atoms : Value) (b : Binding) : M W SolOut :=
  match atoms with
  | .list as => solveAtomsStats st log api mods as b
  | _ => M.throw (.exception "Solver can only solve lists of atoms")

/-- The solver with nesting depth at most `n`, like `solverAt`; relations that ask the solver (`richard/core/Solver.py:124`) ask the one that
counts. -/
def solverStats (st : Lens W Stats) (log : Bool) (mods : List (Module W)) : Nat → SolverApi W
  | 0 => { solve := fun _ _ => M.oof, writeAtom := fun _ => M.oof }
  | n + 1 => { solve := solveValueStats st log (solverStats st log mods n) mods, writeAtom := writeAtom (solverStats st log mods n) mods }

/-- Models `richard/processor/semantic_executor/AtomExecutor.py:30-45` for a product of the composer: a new solver, which has no statistics
yet, and the product with the bindings and the statistics (`richard/processor/semantic_executor/AtomExecutorProduct.py:5-8`). -/
def executeStats (st : Lens W Stats) (log : Bool) (mods : List (Module W)) (n : Nat) (incoming : ComposerProduct) : M W (SolOut × Stats) := do
  M.modify (st.put [])
  writeAll (solverStats st log mods n) incoming.inferences
  let _ ← (solverStats st log mods n).solve incoming.executable []
  let bindings ← (solverStats st log mods n).solve incoming.lastIteration []
  let stats ← M.gets st.get
  pure (bindings, stats)

end

/-- Models `richard/core/Logger.py:122-123` (`should_log_stats`), with `showStats` for the field `show_stats` that `log_stats`
(`richard/core/Logger.py:65-69`) sets. -/
def Logger.shouldLogStats (lg : Logger) (showStats : Bool) : Bool := lg.isActive && showStats

/-- `"{}: {}".format(predicate, count)`, `richard/processor/semantic_executor/AtomExecutorProduct.py:16`. -/
def statLine (kv : String × Nat) : Str := kv.1.toList ++ [':', ' '] ++ showNat kv.2

/-- Models `richard/processor/semantic_executor/AtomExecutorProduct.py:11-16` (`log`) with the statistics. -/
def executedEntries (out : SolOut) (stats : Stats) : List Str :=
  productEntries (A := Unit) (.executed out) ++
    (if stats = [] then []
     else [subheaderEntry ['S', 't', 'a', 't', 's'], entry (joinText ['\n'] (stats.map statLine))])

end Verif

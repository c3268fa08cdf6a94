import Verif.Atoms
import Verif.Monad
import Verif.Repr

/-!
# The solver (`richard/core/Solver.py`, `richard/core/Model.py`)
-/

namespace Verif

/-- What `Solver.solve` returns: a list of bindings, or a `ResultIterator` with the row `single` and the number `n`, that is passed on as is
(`richard/core/Solver.py:56-57`, `richard/entity/ResultIterator.py:1-26`). Simplified: it does not remember how far it has been looped over. -/
inductive SolOut where
  | rows (bs : List Binding)
  | iter (single : List Value) (n : Nat)
  deriving Inhabited, Repr, DecidableEq

/-- `len(results)`; models `richard/entity/ResultIterator.py:19-20` and Python's `len`. -/
def SolOut.len : SolOut → Nat
  | .rows bs => bs.length
  | .iter _ n => n

/-- The items of a `ResultIterator`: texts. Models `richard/entity/ResultIterator.py:22-26`. -/
def resultItems (single : List Value) (n : Nat) : List (List Char) := (List.range n).map fun i => strRow single ++ showNat (i + 1)

/-- What a relation's query function returns: `list[list]` or a `ResultIterator`.
Models the return types used in `richard/core/Solver.py:127-139`. -/
inductive QOut where
  | rows (rs : List (List Value))
  | iter (single : List Value) (n : Nat)
  deriving Inhabited, Repr, DecidableEq

/-- The part of `Solver` that relations can call (`richard/interface/SomeSolver.py`). -/
structure SolverApi (W : Type) where
  solve : Value → Binding → M W SolOut
  writeAtom : Value → M W Unit

/-- `richard/type/ExecutionContext.py:7-12`. Simplified: instead of the whole relation it has its predicate and its
column names (`relation.predicate`, `relation.arguments`), the only fields the library's functions read. -/
structure Ctx (W : Type) where
  predicate : String
  columns : List String
  arguments : List Value
  binding : Binding
  solver : SolverApi W

/-- `richard/entity/Relation.py:5-30`. In the two sizes `none` stands for the constant `IGNORED`; other sizes are natural numbers. -/
structure Relation (W : Type) where
  predicate : String
  columns : List String := []
  query : List Value → Ctx W → M W QOut
  write : Option (List Value → Ctx W → M W Unit) := none
  relationSize : Option Nat := none
  argumentSizes : List (Option Nat) := []

/-- A module: its relations, by predicate; they may change with the world (rules can be learned).
Models `richard/interface/SomeModule.py:6-20` (`get_relations`). -/
structure Module (W : Type) where
  relations : W → String → Option (Relation W)

section
variable {W : Type}

/-- Models `richard/core/Model.py:24-30` (`find_relations`). -/
def findRelations (mods : List (Module W)) (w : W) (p : String) : List (Relation W) :=
  mods.filterMap (fun m => m.relations w p)

/-- Models `richard/core/Solver.py:144-160` (`model_values_2_db_values`). -/
def dbValues (args : List Value) (b : Binding) : List Value :=
  args.map fun a => match a with
    | .var n => match b.get n with
      | some v => v
      | none => .none
    | a => a

/-- The row deduplication of `richard/core/Solver.py:135-139`, starting from the rows already collected and the set of
their printed forms. -/
def dedupRows (seen : List (List Char)) : List (List Value) → List (List Value)
  | [] => []
  | r :: rs =>
    if seen.contains (strRow r) then dedupRows seen rs
    else r :: dedupRows (seen ++ [strRow r]) rs

/-- Loop over the relations in `richard/core/Solver.py:123-141`. `multiple` is `len(relations) > 1`, `acc` the rows
collected so far with their printed forms. -/
def queryRelations (api : SolverApi W) (multiple : Bool) (args : List Value) (b : Binding) (db : List Value) :
    List (Relation W) → List (List Value) → M W QOut
  | [], acc => pure (.rows acc)
  | r :: rs, acc => do
    let out ← r.query db { predicate := r.predicate, columns := r.columns, arguments := args, binding := b, solver := api }
    match out with
    | .iter single n =>
      if multiple then M.throw (.exception "A relation that returns a ResultIterator can't be used in combination")
      else pure (.iter single n)
    | .rows rows => queryRelations api multiple args b db rs (acc ++ dedupRows (acc.map strRow) rows)

/-- Models `richard/core/Solver.py:112-141` (`find_relation_values`). -/
def findRelationValues (api : SolverApi W) (mods : List (Module W)) (p : String) (args : List Value) (b : Binding) :
    M W QOut := do
  let rels ← M.gets (findRelations mods · p)
  match rels with
  | [] => M.throw (.exception "No relation available in the model")
  | r :: rs => queryRelations api (decide (0 < rs.length)) args b (dbValues args b) (r :: rs) []

/-- The loop over the arguments of one row, `richard/core/Solver.py:81-94`. `b` is the incoming binding, `result` the
binding under construction, `conflict` the flag. Row elements are consumed in step with the arguments; a missing
element that is looked at is an `IndexError`. -/
def extendRow (b : Binding) : List Value → List Value → Binding → Bool → Except Err (Binding × Bool)
  | [], _, result, conflict => .ok (result, conflict)
  | .var n :: args, row, result, conflict =>
    if b.has n then extendRow b args row.tail result conflict
    else match row with
      | [] => .error .indexError
      | v :: row' =>
        let conflict' := match result.get n with
          | some v' => conflict || decide (v' ≠ v)
          | none => conflict
        extendRow b args row' (result.set n v) conflict'
  | arg :: args, row, result, conflict =>
    match row with
    | [] => .error .indexError
    | v :: row' => extendRow b args row' result (conflict || (decide (v ≠ .none) && decide (arg ≠ v)))

/-- Models `richard/core/Solver.py:72-101` (`create_solve_single_results`). -/
def createResults (b : Binding) (args : List Value) : List (List Value) → Except Err (List Binding)
  | [] => .ok []
  | row :: rows =>
    match extendRow b args row b false with
    | .error e => .error e
    | .ok (result, conflict) =>
      match createResults b args rows with
      | .error e => .error e
      | .ok rest => .ok (if conflict then rest else result :: rest)

/-- Models `richard/core/Solver.py:59-69`, the part of `solve_single` after the values have been found. -/
def resultsOf (b : Binding) (args : List Value) : QOut → M W SolOut
  | .iter single n => pure (.iter single n)
  | .rows [] => pure (.rows [])
  | .rows (r :: rs) =>
    if r.length ≠ args.length then M.throw (.exception "The number of arguments in the results is wrong")
    else M.lift ((createResults b args (r :: rs)).map .rows)

/-- Models `richard/core/Solver.py:104-109` (`solve_disjunction`); the alternatives are solved by `api`. -/
def solveDisjuncts (api : SolverApi W) (b : Binding) : List Value → M W SolOut
  | [] => pure (.rows [])
  | d :: ds => do
    let results ← api.solve d b
    if results.len > 0 then pure results else solveDisjuncts api b ds

/-- Models `richard/core/Solver.py:41-69` (`solve_single`). An atom is a tuple (or list) starting with the predicate.
Simplified: an atom that is no tuple or list, or whose predicate is not a string, is a `TypeError` at once;
statistics are left out here; they are in `Verif.Stats`. -/
def solveSingle (api : SolverApi W) (mods : List (Module W)) (atom : Value) (b : Binding) : M W SolOut :=
  match atom with
  | .tuple (.str p :: args) => go p args
  | .list (.str p :: args) => go p args
  | .tuple [] => M.throw .indexError
  | .list [] => M.throw .indexError
  | _ => M.throw .typeError
where
  /-- After the predicate and the arguments have been taken apart (lines 42-43). -/
  go (p : String) (args : List Value) : M W SolOut :=
    if p = "$disjunction" then
      match args with
      | .list ds :: _ => solveDisjuncts api b ds
      | .tuple ds :: _ => solveDisjuncts api b ds
      | [] => M.throw .indexError
      | _ => M.throw .typeError
    else do
      let values ← findRelationValues api mods p args b
      resultsOf b args values

/-- `if not r in result: result.append(r)`, `richard/core/Solver.py:35-37`. -/
def addNew (acc : List Binding) (r : Binding) : List Binding :=
  if acc.any (fun a => Dict.beq a r) then acc else acc ++ [r]

/-- The loop `for b in bindings: for r in self.solve(atoms[1:], b): ...`, `richard/core/Solver.py:34-37`;
`f` solves the remaining atoms. Simplified: when these give a non-empty `ResultIterator` this is an error, in Python the texts of its items
end up among the results. -/
def collect (f : Binding → M W SolOut) : List Binding → List Binding → M W SolOut
  | [], acc => pure (.rows acc)
  | b :: bs, acc => do
    match ← f b with
    | .rows rs => collect f bs (rs.foldl addNew acc)
    | .iter _ 0 => collect f bs acc
    | .iter _ (_ + 1) => M.throw .attributeError

/-- Models `richard/core/Solver.py:22-38` (`solve`) on a list of atoms. Simplified: going on with the items of a non-empty `ResultIterator`
instead of bindings is an error, in Python it depends on what is done with them. -/
def solveAtoms (api : SolverApi W) (mods : List (Module W)) : List Value → Binding → M W SolOut
  | [], b => pure (.rows [b])
  | [a], b => solveSingle api mods a b
  | a :: a2 :: rest, b => do
    match ← solveSingle api mods a b with
    | .rows bs => collect (solveAtoms api mods (a2 :: rest)) bs []
    | .iter _ 0 => pure (.rows [])
    | .iter _ (_ + 1) => M.throw .attributeError

/-- The loop `for relation in relations` of `richard/core/Solver.py:171-174`. -/
def writeRelations (api : SolverApi W) (args : List Value) : List (Relation W) → M W Unit
  | [] => pure ()
  | r :: rs => do
    match r.write with
    | some f => f args { predicate := r.predicate, columns := r.columns, arguments := args, binding := [], solver := api }
    | none => pure ()
    writeRelations api args rs

/-- Models `richard/core/Solver.py:163-174` (`write_atom`). -/
def writeAtom (api : SolverApi W) (mods : List (Module W)) (atom : Value) : M W Unit :=
  match atom with
  | .tuple (.str p :: args) => go p args
  | .list (.str p :: args) => go p args
  | .tuple [] => M.throw .indexError
  | .list [] => M.throw .indexError
  | _ => M.throw .typeError
where
  /-- After the predicate and the arguments have been taken apart (lines 164-165). -/
  go (p : String) (args : List Value) : M W Unit := do
    let rels ← M.gets (findRelations mods · p)
    match rels with
    | [] => M.throw (.exception "No relation available in the model")
    | r :: rs => writeRelations api args (r :: rs)

/-- `solve` with the check of `richard/core/Solver.py:24-25`. -/
def solveValue (api : SolverApi W) (mods : List (Module W)) (atoms : Value) (b : Binding) : M W SolOut :=
  match atoms with
  | .list as => solveAtoms api mods as b
  | _ => M.throw (.exception "Solver can only solve lists of atoms")

/-- The solver with nesting depth at most `n`: relations called by the solver at depth `n + 1` get the solver at depth `n`
as `context.solver` (`richard/core/Solver.py:124`). Depth 0 never answers. -/
def solverAt (mods : List (Module W)) : Nat → SolverApi W
  | 0 => { solve := fun _ _ => M.oof, writeAtom := fun _ => M.oof }
  | n + 1 => { solve := solveValue (solverAt mods n) mods, writeAtom := writeAtom (solverAt mods n) mods }

end

end Verif

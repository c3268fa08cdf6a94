import Verif.Core

/-!
# Query optimisation (`richard/processor/semantic_composer/optimizer`)
-/

namespace Verif

/-! ## FrontResolveName -/

mutual
/-- Models `richard/processor/semantic_composer/optimizer/FrontResolveName.py:13-33` (`extract_list`): the name resolvers, the rest. -/
def extractList : List Value → Except Err (List Value × List Value)
  | [] => .ok ([], [])
  | a :: rest =>
    match extractOne a with
    | .error e => .error e
    | .ok (rs, kept) => match extractList rest with
      | .error e => .error e
      | .ok (rs', kept') => .ok (rs ++ rs', kept ++ kept')
/-- The body of the loop `FrontResolveName.py:18-31`: name resolvers, and what is appended to the rest. -/
def extractOne : Value → Except Err (List Value × List Value)
  | .list xs => match extractList xs with
    | .error e => .error e
    | .ok (rs, child) => .ok (rs, [.list child])
  | .tuple [] => .error .indexError
  | .tuple (p :: ts) =>
    if p = .str "resolve_name" then .ok ([.tuple (p :: ts)], [])
    else match extractTerms (p :: ts) with
      | .error e => .error e
      | .ok (rs, child) => .ok (rs, [.tuple child])
  | v => .ok ([], [v])
/-- Models `FrontResolveName.py:35-47` (`extract_tuple`). -/
def extractTerms : List Value → Except Err (List Value × List Value)
  | [] => .ok ([], [])
  | .list xs :: rest => match extractList xs with
    | .error e => .error e
    | .ok (rs, child) => match extractTerms rest with
      | .error e => .error e
      | .ok (rs', kept') => .ok (rs ++ rs', .list child :: kept')
  | t :: rest => match extractTerms rest with
    | .error e => .error e
    | .ok (rs', kept') => .ok (rs', t :: kept')
end

/-- Models `FrontResolveName.py:8-10` (`sort`). -/
def frontSort (composition : List Value) : Except Err (List Value) :=
  match extractList composition with
  | .error e => .error e
  | .ok (rs, others) => .ok (rs ++ others)

/-! ## SortByCost -/

/-- The loop over the arguments in `richard/processor/semantic_composer/optimizer/SortByCost.py:70-83`; Python's `zip` of lists of equal
length (checked before). -/
def boundSize (bound : List String) : List Value → List (Option Nat) → Nat
  | a :: as, s :: ss =>
    let rest := boundSize bound as ss
    match s with
    | none => rest
    | some n => match a with
      | .var x => if bound.contains x then n * rest else rest
      | .list _ => rest
      | .tuple _ => rest
      | _ => n * rest
  | _, _ => 1

/-- The cost according to one relation, `SortByCost.py:62-85`. Simplified: exact division instead of a float. -/
def relationCost {W : Type} (bound : List String) (args : List Value) (r : Relation W) : Except Err Rat :=
  match r.relationSize with
  | none => .ok 1000000000000
  | some size =>
    if args.length ≠ r.argumentSizes.length then .error (.exception "Number of argument sizes doesn't match that of relation")
    else
      let product := boundSize bound args r.argumentSizes
      if product = 0 then .error .zeroDivision else .ok ((size : Rat) / (product : Rat))

/-- The largest of the costs of the relations, `SortByCost.py:60-91`; `best` is the largest so far. -/
def maxCost {W : Type} (bound : List String) (args : List Value) : List (Relation W) → Option Rat → Except Err Rat
  | [], best => .ok (best.getD 0)
  | r :: rs, best =>
    match relationCost bound args r with
    | .error e => .error e
    | .ok c => maxCost bound args rs (some (match best with
      | none => c
      | some b => if b < c then c else b))

/-- Models `SortByCost.py:54-91` (`calculate_cost`). Simplified: no relation is found for a predicate that is not a string; an atom that is
not a tuple or list is a `TypeError`. -/
def atomCost {W : Type} (rels : String → List (Relation W)) (bound : List String) : Value → Except Err Rat
  | .tuple (.str p :: args) => maxCost bound args (rels p) none
  | .list (.str p :: args) => maxCost bound args (rels p) none
  | .tuple [] => .error .indexError
  | .list [] => .error .indexError
  | .tuple _ => .ok 0
  | .list _ => .ok 0
  | _ => .error .typeError

/-- The loop `SortByCost.py:27-29`. -/
def costAll {W : Type} (rels : String → List (Relation W)) (bound : List String) : List Value → Except Err (List (Value × Rat))
  | [] => .ok []
  | a :: as => match atomCost rels bound a with
    | .error e => .error e
    | .ok c => match costAll rels bound as with
      | .error e => .error e
      | .ok cs => .ok ((a, c) :: cs)

/-- Puts an entry before the first one that is not cheaper. -/
def insertCost (x : Value × Rat) : List (Value × Rat) → List (Value × Rat)
  | [] => [x]
  | y :: ys => if x.2 ≤ y.2 then x :: y :: ys else y :: insertCost x ys

/-- `results.sort(key=lambda result: result['cost'])`, `SortByCost.py:31`: Python's stable sort, as an insertion sort. -/
def sortCosts : List (Value × Rat) → List (Value × Rat)
  | [] => []
  | x :: xs => insertCost x (sortCosts xs)

/-- `isinstance(arg, list) and len(arg) > 0 and isinstance(arg[0], tuple)`, `SortByCost.py:44-45`. -/
def isAtomList : Value → Bool
  | .list (.tuple _ :: _) => true
  | _ => false

/-- The elements of a list or tuple. Python's `list(atom)`, `SortByCost.py:41`. -/
def elements : Value → List Value
  | .list xs => xs
  | .tuple xs => xs
  | _ => []

/-- The loop `SortByCost.py:43-47`; `sort` sorts an inner list. -/
def sortArgs {W : Type} (sort : List Value → M W (List Value)) : List Value → M W (List Value)
  | [] => pure []
  | a :: as =>
    if isAtomList a then do
      let xs ← sort (elements a)
      let rest ← sortArgs sort as
      pure (.list xs :: rest)
    else do
      let rest ← sortArgs sort as
      pure (a :: rest)

/-- Models `SortByCost.py:40-51` (`sort_arguments`). -/
def sortArguments {W : Type} (sort : List Value → M W (List Value)) (a : Value) : M W Value :=
  if (elements a).any isAtomList then do
    let xs ← sortArgs sort (elements a)
    pure (.tuple xs)
  else pure a

/-- Models `SortByCost.py:12-37` (`sort`, `sort_rest`). The number bounds the depth of the recursion; how much is needed is proved.
`done` is left out: the result is what is put after it. -/
def sortByCost {W : Type} (rels : String → List (Relation W)) : Nat → List String → List Value → M W (List Value)
  | _, _, [] => pure []
  | 0, _, _ :: _ => M.oof
  | n + 1, bound, a :: as => do
    let results ← M.lift (costAll rels bound (a :: as))
    match (sortCosts results).map Prod.fst with
    | [] => pure []
    | first :: rest => do
      let first' ← sortArguments (sortByCost rels n bound) first
      let rest' ← sortByCost rels n (bound ++ varsOf first') rest
      pure (first' :: rest')

mutual
/-- Size of a value, a bound for the depth of the recursion of `sortByCost`. -/
def costFuel : Value → Nat
  | .list xs => costFuelAll xs + 1
  | .tuple xs => costFuelAll xs + 1
  | _ => 1
/-- Size of a list. -/
def costFuelAll : List Value → Nat
  | [] => 0
  | x :: xs => costFuel x + costFuelAll xs
end

/-- Models the call `SortByCost().sort(semantics, self.model)`, `richard/processor/semantic_composer/optimizer/BasicQueryOptimizer.py:23`. -/
def sortComposition {W : Type} (mods : List (Module W)) (atoms : List Value) : M W (List Value) := do
  let rels ← M.gets (fun w => findRelations mods w)
  sortByCost rels (costFuelAll atoms) [] atoms

/-! ## IsolateIndependentParts -/

/-- Models `richard/processor/semantic_composer/optimizer/IsolateIndependentParts.py:5-8` (`AtomBatch`). -/
structure AtomBatch where
  atoms : List Value
  vars : List String
deriving DecidableEq

/-- `len(batch.variables & new_batch.variables) > 0`, `IsolateIndependentParts.py:60`. -/
def shares (xs ys : List String) : Bool := xs.any fun x => ys.contains x

/-- The body of the loop `IsolateIndependentParts.py:57-67`: the batch is joined with the first one it shares a variable with, or added. -/
def addBatch (b : AtomBatch) : List AtomBatch → List AtomBatch
  | [] => [b]
  | n :: ns => if shares b.vars n.vars then ⟨n.atoms ++ b.atoms, n.vars ++ b.vars⟩ :: ns else n :: addBatch b ns

/-- The loop `IsolateIndependentParts.py:56-67`. -/
def mergePass : List AtomBatch → List AtomBatch → List AtomBatch
  | acc, [] => acc
  | acc, b :: bs => mergePass (addBatch b acc) bs

/-- The loop `IsolateIndependentParts.py:55-72`. The number bounds the rounds; as every round but the last makes the list shorter, its
length is enough. -/
def mergeLoop : Nat → List AtomBatch → List AtomBatch
  | 0, bs => bs
  | n + 1, bs =>
    let new := mergePass [] bs
    if new.length = bs.length then bs else mergeLoop n new

/-- Models `IsolateIndependentParts.py:79-92` (`restore_atom_order`). -/
def restoreOrder (atoms : List Value) (b : AtomBatch) : AtomBatch := ⟨atoms.filter fun a => decide (a ∈ b.atoms), b.vars⟩

/-- Models `IsolateIndependentParts.py:45-76` (`collect_batches`). -/
def collectBatches (atoms : List Value) (excluded : List String) : List AtomBatch :=
  (mergeLoop atoms.length (atoms.map fun a => ⟨[a], (varsOf a).filter fun x => !excluded.contains x⟩)).map (restoreOrder atoms)

/-- The loop `IsolateIndependentParts.py:31-40`; `rec` is the recursive call. -/
def placeBatches (roots : List String) (rec : List Value → List Value) : List AtomBatch → List Value
  | [] => []
  | b :: bs =>
    (if shares b.vars roots then b.atoms else [.tuple [.str "scoped", .list (rec b.atoms)]]) ++ placeBatches roots rec bs

/-- Models `IsolateIndependentParts.py:21-42` (`isolate`). The number bounds the depth of the recursion; the number of atoms is enough. -/
def isolateN : Nat → List Value → List String → List Value
  | _, [], _ => []
  | 0, atoms, _ => atoms
  | n + 1, head :: rest, roots =>
    head :: placeBatches roots (fun atoms => isolateN n atoms []) (collectBatches rest (varsOf head))

/-- Models the call of `isolate`, `BasicQueryOptimizer.py:26`. -/
def isolate (atoms : List Value) (roots : List String) : List Value := isolateN atoms.length atoms roots

/-! ## BasicQueryOptimizer -/

/-- Models `BasicQueryOptimizer.py:16-29` (`optimize`): the last of the forms it lists. -/
def optimize {W : Type} (mods : List (Module W)) (semantics : List Value) (roots : List String) : M W (List Value) := do
  let s1 ← M.lift (frontSort semantics)
  let s2 ← sortComposition mods s1
  pure (isolate s2 roots)

end Verif

import Verif.Solver

/-!
# The core module (`richard/module/CoreModule.py`)
-/

namespace Verif

variable {W : Type}

/-- `values[i]` on a Python list. -/
def nth (xs : List Value) (i : Nat) : M W Value :=
  match xs[i]? with
  | some v => pure v
  | none => M.throw .indexError

mutual
/-- Python's `<`. Defined on two numbers, two strings (by code point), two lists and two tuples (lexicographically);
everything else is a `TypeError`. Models the comparisons in `richard/module/CoreModule.py:71,88,158,183`. -/
def pyLt : Value → Value → Except Err Bool
  | .num a, .num b => .ok (decide (a < b))
  | .str a, .str b => .ok (decide (a < b))
  | .list a, .list b => pyLtList a b
  | .tuple a, .tuple b => pyLtList a b
  | _, _ => .error .typeError
/-- Lexicographic comparison of the elements: the first pair of different elements decides. -/
def pyLtList : List Value → List Value → Except Err Bool
  | [], [] => .ok false
  | [], _ :: _ => .ok true
  | _ :: _, [] => .ok false
  | x :: xs, y :: ys => if x = y then pyLtList xs ys else pyLt x y
end

mutual
/-- Whether a value is hashable. Lists are not; the frozen dataclass `SemanticTemplate` has list fields, so it is not. -/
def hashable : Value → Bool
  | .list _ => false
  | .tmpl _ _ => false
  | .tuple xs => hashableAll xs
  | _ => true
/-- All elements hashable. -/
def hashableAll : List Value → Bool
  | [] => true
  | x :: xs => hashable x && hashableAll xs
end

/-- Models `richard/module/CoreModule.py:40-56` (`equals`). -/
def coreEquals (values : List Value) (_ : Ctx W) : M W QOut := do
  let e1 ← nth values 0
  let e2 ← nth values 1
  if e1 = .none then
    if e2 = .none then M.throw (.exception "== is called with two variables")
    else pure (.rows [[e2, e2]])
  else if e2 = .none then pure (.rows [[e1, e1]])
  else if e1 = e2 then pure (.rows [[e1, e2]])
  else pure (.rows [])

/-- Models `richard/module/CoreModule.py:61-73` (`greater_than`). -/
def coreGreaterThan (values : List Value) (_ : Ctx W) : M W QOut := do
  let e1 ← nth values 0
  let e2 ← nth values 1
  if e1 = .none then M.throw (.exception "> first argument is unbound")
  else if e2 = .none then M.throw (.exception "> second argument is unbound")
  else do
    let c ← M.lift (pyLt e2 e1)
    if c then pure (.rows [values]) else pure (.rows [])

/-- Models `richard/module/CoreModule.py:78-90` (`less_than`). -/
def coreLessThan (values : List Value) (_ : Ctx W) : M W QOut := do
  let e1 ← nth values 0
  let e2 ← nth values 1
  if e1 = .none then M.throw (.exception "< first argument is unbound")
  else if e2 = .none then M.throw (.exception "< second argument is unbound")
  else do
    let c ← M.lift (pyLt e1 e2)
    if c then pure (.rows [values]) else pure (.rows [])

/-- Models `richard/module/CoreModule.py:95-108` (`multiply`). The product is computed before the checks for `None`, so an
unbound operand is a `TypeError` and the two checks are never reached. Simplified: only the product of two numbers
is defined (Python also repeats sequences). -/
def coreMultiply (values : List Value) (_ : Ctx W) : M W QOut := do
  let e1 ← nth values 0
  let e2 ← nth values 1
  match e1, e2 with
  | .num a, .num b => pure (.rows [[.none, .none, .num (a * b)]])
  | _, _ => M.throw .typeError

/-- Models `richard/module/CoreModule.py:113-122` (`count`). -/
def coreCount (values : List Value) (ctx : Ctx W) : M W QOut := do
  let body ← nth values 1
  let results ← ctx.solver.solve body ctx.binding
  pure (.rows [[.num results.len, .none]])

/-- `element_var.name`: variables and reified variables have a name. -/
def nameOf : Value → Except Err String
  | .var n => .ok n
  | .rvar n => .ok n
  | _ => .error .attributeError

/-- `result[var.name]`. -/
def lookupVar (b : Binding) (v : Value) : Except Err Value :=
  match nameOf v with
  | .error e => .error e
  | .ok n => match b.get n with
    | some x => .ok x
    | none => .error .keyError

/-- `for result in results`: the bindings to loop over, where each has `result[var.name]` evaluated first (`richard/module/CoreModule.py:134-135`,
`157-159`, `182-184`, `206-207`, `320`). The items of a `ResultIterator` are texts, and there that is a `TypeError`. -/
def iterSol (var : Value) : SolOut → M W (List Binding)
  | .rows bs => pure bs
  | .iter _ 0 => pure []
  | .iter _ (_ + 1) => match nameOf var with
    | .error e => M.throw e
    | .ok _ => M.throw .typeError

/-- The loop `s += result[element_var.name]`, `richard/module/CoreModule.py:133-135,204-208`. -/
def sumLoop (var : Value) : List Binding → Rat → Except Err Rat
  | [], s => .ok s
  | b :: bs, s =>
    match lookupVar b var with
    | .error e => .error e
    | .ok (.num q) => sumLoop var bs (s + q)
    | .ok _ => .error .typeError

/-- Models `richard/module/CoreModule.py:127-139` (`sum`). -/
def coreSum (values : List Value) (ctx : Ctx W) : M W QOut := do
  let var ← nth ctx.arguments 1
  let body ← nth values 2
  let results ← ctx.solver.solve body ctx.binding
  let bs ← iterSol var results
  let s ← M.lift (sumLoop var bs 0)
  pure (.rows [[.num s, .none, .none]])

/-- The condition `min is None or result[element_var.name] < min`, `richard/module/CoreModule.py:158,183`. -/
def argBetter (lt : Value → Value → Except Err Bool) (elVar : Value) (b : Binding) (best : Value) : Except Err Bool :=
  if best = .none then .ok true
  else match lookupVar b elVar with
    | .error e => .error e
    | .ok v => lt v best

/-- The loop of `arg_min`, `richard/module/CoreModule.py:155-160`, with `lt a b` for the comparison `a < b`.
`best` is the variable `min` (`None` at first), `entity` the variable `entity`. -/
def argLoop (lt : Value → Value → Except Err Bool) (entVar elVar : Value) :
    List Binding → Value → Value → Except Err (Value × Value)
  | [], best, entity => .ok (entity, best)
  | b :: bs, best, entity =>
    match argBetter lt elVar b best with
    | .error e => .error e
    | .ok false => argLoop lt entVar elVar bs best entity
    | .ok true =>
      match lookupVar b elVar with
      | .error e => .error e
      | .ok v =>
        match lookupVar b entVar with
        | .error e => .error e
        | .ok x => argLoop lt entVar elVar bs v x

/-- Common part of `arg_min` and `arg_max`. -/
def coreArg (lt : Value → Value → Except Err Bool) (values : List Value) (ctx : Ctx W) : M W QOut := do
  let entVar ← nth ctx.arguments 0
  let elVar ← nth ctx.arguments 1
  let body ← nth values 2
  let results ← ctx.solver.solve body ctx.binding
  if results.len = 0 then pure (.rows [])
  else do
    let bs ← iterSol elVar results
    let r ← M.lift (argLoop lt entVar elVar bs .none .none)
    pure (.rows [[r.1, r.2, .none]])

/-- Models `richard/module/CoreModule.py:144-164` (`arg_min`). -/
def coreArgMin : List Value → Ctx W → M W QOut := coreArg pyLt

/-- Models `richard/module/CoreModule.py:169-189` (`arg_max`). -/
def coreArgMax : List Value → Ctx W → M W QOut := coreArg (fun a b => pyLt b a)

/-- Models `richard/module/CoreModule.py:194-214` (`avg`). -/
def coreAvg (values : List Value) (ctx : Ctx W) : M W QOut := do
  let var ← nth ctx.arguments 1
  let body ← nth values 2
  let results ← ctx.solver.solve body ctx.binding
  if results.len = 0 then pure (.rows [])
  else do
    let bs ← iterSol var results
    let s ← M.lift (sumLoop var bs 0)
    pure (.rows [[.num (s / bs.length), .none, .none]])

/-- Models `richard/module/CoreModule.py:219-234` (`percentage`). -/
def corePercentage (values : List Value) (ctx : Ctx W) : M W QOut := do
  let nominator ← nth values 1
  let denominator ← nth values 2
  let r1 ← ctx.solver.solve nominator ctx.binding
  let r2 ← ctx.solver.solve denominator ctx.binding
  if r2.len = 0 then pure (.rows [])
  else pure (.rows [[.num ((r1.len : Rat) / (r2.len : Rat) * 100), .none, .none]])

/-- Models `richard/module/CoreModule.py:240-253` (`not_function`). -/
def coreNot (values : List Value) (ctx : Ctx W) : M W QOut := do
  let body ← nth values 0
  let results ← ctx.solver.solve body ctx.binding
  if results.len > 0 then pure (.rows []) else pure (.rows [[.none]])

/-- Models `richard/module/CoreModule.py:257-261` (`let`). -/
def coreLet (values : List Value) (_ : Ctx W) : M W QOut := do
  let v ← nth values 1
  pure (.rows [[v, v]])

/-- Python comparison of a count with a number; `None` or another type: `==` is false, `<` is a `TypeError`. -/
def numOf : Value → Except Err Rat
  | .num q => .ok q
  | _ => .error .typeError

/-- Models `richard/module/CoreModule.py:265-277` (`determiner_equals`). -/
def coreDetEquals (values : List Value) (ctx : Ctx W) : M W QOut :=
  match values with
  | [body, number] => do
    let results ← ctx.solver.solve body ctx.binding
    if Value.num results.len = number then pure (.rows [[.none, .none]]) else pure (.rows [])
  | _ => M.throw .valueError

/-- Models `richard/module/CoreModule.py:281-293` (`determiner_greater_than`). -/
def coreDetGreaterThan (values : List Value) (ctx : Ctx W) : M W QOut :=
  match values with
  | [body, number] => do
    let results ← ctx.solver.solve body ctx.binding
    let q ← M.lift (numOf number)
    if (results.len : Rat) > q then pure (.rows [[.none, .none]]) else pure (.rows [])
  | _ => M.throw .valueError

/-- Models `richard/module/CoreModule.py:297-309` (`determiner_less_than`). -/
def coreDetLessThan (values : List Value) (ctx : Ctx W) : M W QOut :=
  match values with
  | [body, number] => do
    let results ← ctx.solver.solve body ctx.binding
    let q ← M.lift (numOf number)
    if (results.len : Rat) < q then pure (.rows [[.none, .none]]) else pure (.rows [])
  | _ => M.throw .valueError

/-- `dict.fromkeys(iterable)`, `richard/type/OrderedSet.py:15-16`: first occurrences, in order; hashing a list raises. -/
def orderedSet : List Value → List Value → Except Err (List Value)
  | [], acc => .ok acc
  | x :: xs, acc =>
    if hashable x then orderedSet xs (if x ∈ acc then acc else acc ++ [x]) else .error .typeError

/-- `[binding[quant_var.name] for binding in ...]`, `richard/module/CoreModule.py:319`. -/
def lookupAll (var : Value) : List Binding → Except Err (List Value)
  | [] => .ok []
  | b :: bs =>
    match lookupVar b var with
    | .error e => .error e
    | .ok v => match lookupAll var bs with
      | .error e => .error e
      | .ok vs => .ok (v :: vs)

/-- The loop `richard/module/CoreModule.py:323-329`: the entities for which the body has a result. -/
def allLoop (ctx : Ctx W) (var : String) (body : Value) : List Value → List Value → M W (List Value)
  | [], acc => pure acc
  | e :: es, acc => do
    let r ← ctx.solver.solve body (ctx.binding.union [(var, e)])
    allLoop ctx var body es (if r.len > 0 then (if e ∈ acc then acc else acc ++ [e]) else acc)

/-- Models `richard/module/CoreModule.py:313-338` (`determiner_all`). -/
def coreAll (values : List Value) (ctx : Ctx W) : M W QOut := do
  let var ← nth ctx.arguments 0
  let range ← nth values 1
  let body ← nth values 2
  let out ← ctx.solver.solve range ctx.binding
  let bs ← iterSol var out
  let vs ← M.lift (lookupAll var bs)
  let entities ← M.lift (orderedSet vs [])
  match entities with
  | [] => pure (.rows [])
  | e :: es => do
    let name ← M.lift (nameOf var)
    let results ← allLoop ctx name body (e :: es) []
    if results.length = (e :: es).length then pure (.rows (results.map fun r => [r, .none, .none]))
    else pure (.rows [])

/-- Models `richard/module/CoreModule.py:342-354` (`determiner_none`). -/
def coreNone (values : List Value) (ctx : Ctx W) : M W QOut := do
  let body ← nth values 0
  let results ← ctx.solver.solve body ctx.binding
  if results.len = 0 then pure (.rows [[.none]]) else pure (.rows [])

/-- Models `richard/module/CoreModule.py:359-372` (`scoped`). -/
def coreScoped (values : List Value) (ctx : Ctx W) : M W QOut := do
  let body ← nth values 0
  let results ← ctx.solver.solve body ctx.binding
  if results.len = 0 then pure (.rows []) else pure (.rows [[.none]])

/-- The loop `richard/module/CoreModule.py:385-386`. -/
def storeLoop (ctx : Ctx W) : List Value → M W Unit
  | [] => pure ()
  | a :: as => do
    ctx.solver.writeAtom a
    storeLoop ctx as

/-- Models `richard/module/CoreModule.py:376-390` (`store`). -/
def coreStore (values : List Value) (ctx : Ctx W) : M W QOut := do
  let unbound ← nth values 0
  match unbound with
  | .list as => do
    storeLoop ctx (bindVarsList ctx.binding as)
    pure (.rows [[.none]])
  | _ => M.throw (.exception "'store' expects a list of atoms")

/-- The loop `richard/module/CoreModule.py:407-416`; `none` stands for `return [ fail_structure ]`. -/
def destructureLoop : List Value → List Value → Option (List Value)
  | a :: as, s :: ss =>
    if a = s then (destructureLoop as ss).map (s :: ·)
    else match s with
      | .var _ => (destructureLoop as ss).map (a :: ·)
      | _ => none
  | _, _ => some []

/-- Models `richard/module/CoreModule.py:395-420` (`destructure`). Simplified: `atoms[0]` and `len(atom)` are only defined on
lists and tuples (not on strings). -/
def coreDestructure (values : List Value) (ctx : Ctx W) : M W QOut := do
  let unbound ← nth values 0
  match bindVars ctx.binding unbound with
  | .list (.list atom :: _) => go atom
  | .list (.tuple atom :: _) => go atom
  | .tuple (.list atom :: _) => go atom
  | .tuple (.tuple atom :: _) => go atom
  | .list [] => M.throw .indexError
  | .tuple [] => M.throw .indexError
  | _ => M.throw .typeError
where
  /-- After `atom = atoms[0]` (lines 400-420). -/
  go (atom : List Value) : M W QOut :=
    let structure_ := ctx.arguments.tail
    let fail : List Value := .none :: List.replicate structure_.length .none
    if atom.length ≠ structure_.length then pure (.rows [fail])
    else match destructureLoop atom structure_ with
      | none => pure (.rows [fail])
      | some result => pure (.rows [.none :: result])

/-- `v in binding` and `binding[v]` for a key `v` that is any value: keys are strings; an unhashable key raises. -/
def lookupKey (b : Binding) (v : Value) : Except Err (Option Value) :=
  match v with
  | .str n => .ok (b.get n)
  | v => if hashable v then .ok none else .error .typeError

/-- `item` for a list of variables, `richard/module/CoreModule.py:438-443`. -/
def findItem (b : Binding) : List Value → Except Err (List Value)
  | [] => .ok []
  | v :: vs =>
    match lookupKey b v with
    | .error e => .error e
    | .ok o => match findItem b vs with
      | .error e => .error e
      | .ok rest => .ok (o.getD .none :: rest)

/-- `if not item in result: result.append(item)`. -/
def addValue (acc : List Value) (v : Value) : List Value := if v ∈ acc then acc else acc ++ [v]

/-- The loop `richard/module/CoreModule.py:436-452`. -/
def findAllLoop (variable_ : Value) : List Binding → List Value → Except Err (List Value)
  | [], acc => .ok acc
  | b :: bs, acc =>
    match variable_ with
    | .list vs =>
      match findItem b vs with
      | .error e => .error e
      | .ok item => findAllLoop variable_ bs (addValue acc (.list item))
    | v =>
      match lookupKey b v with
      | .error e => .error e
      | .ok none => findAllLoop variable_ bs acc
      | .ok (some x) => findAllLoop variable_ bs (addValue acc x)

/-- `v in binding` and then `binding[v]` when `binding` is a text: whether it has `v` as a part, which then is no index; other values than texts
can not be looked for in a text (`richard/module/CoreModule.py:440-443,449-450`). -/
def missingIn (t : List Char) : Value → Except Err Unit
  | .str n => if n.toList <:+: t then .error .typeError else .ok ()
  | _ => .error .typeError

/-- The loop `richard/module/CoreModule.py:439-443` over a text. -/
def missingAll (t : List Char) : List Value → Except Err (List Value)
  | [] => .ok []
  | v :: vs => match missingIn t v with
    | .error e => .error e
    | .ok _ => (missingAll t vs).map (.none :: ·)

/-- The loop `richard/module/CoreModule.py:436-452` over the items of a `ResultIterator`. -/
def findAllTexts (variable_ : Value) : List (List Char) → List Value → Except Err (List Value)
  | [], acc => .ok acc
  | t :: ts, acc =>
    match variable_ with
    | .list vs => match missingAll t vs with
      | .error e => .error e
      | .ok item => findAllTexts variable_ ts (addValue acc (.list item))
    | v => match missingIn t v with
      | .error e => .error e
      | .ok _ => findAllTexts variable_ ts acc

/-- The list computed by `find_all`. -/
def findAllValues (values : List Value) (ctx : Ctx W) : M W (List Value) := do
  let variable_ ← nth values 0
  let body ← nth values 1
  let out ← ctx.solver.solve body ctx.binding
  match out with
  | .rows bs => M.lift (findAllLoop variable_ bs [])
  | .iter single n => M.lift (findAllTexts variable_ (resultItems single n) [])

/-- Models `richard/module/CoreModule.py:428-456` (`find_all`). -/
def coreFindAll (values : List Value) (ctx : Ctx W) : M W QOut := do
  let result ← findAllValues values ctx
  pure (.rows [[.none, .none, .list result]])

/-- Models `richard/module/CoreModule.py:465-473` (`find_one`). -/
def coreFindOne (values : List Value) (ctx : Ctx W) : M W QOut := do
  let result ← findAllValues values ctx
  match result with
  | [] => pure (.rows [])
  | x :: _ => pure (.rows [[.none, .none, x]])

/-- Models `richard/module/CoreModule.py:13-36` (the registered relations). -/
def coreTable (W : Type) : Dict (List Value → Ctx W → M W QOut) :=
  [("equals", coreEquals), ("greater_than", coreGreaterThan), ("less_than", coreLessThan),
   ("multiply", coreMultiply), ("arg_min", coreArgMin), ("arg_max", coreArgMax), ("sum", coreSum),
   ("avg", coreAvg), ("percentage", corePercentage), ("count", coreCount), ("not", coreNot), ("let", coreLet),
   ("det_equals", coreDetEquals), ("det_greater_than", coreDetGreaterThan), ("det_less_than", coreDetLessThan),
   ("all", coreAll), ("none", coreNone), ("scoped", coreScoped), ("store", coreStore),
   ("destructure", coreDestructure), ("find_all", coreFindAll), ("find_one", coreFindOne)]

/-- Models `richard/module/CoreModule.py:11-36`. -/
def coreModule (W : Type) : Module W where
  relations := fun _ p => ((coreTable W).get p).map fun f => { predicate := p, query := f }

/-- Models `richard/core/Model.py:14-22`: the core module is always the first. -/
def modelOf (modules : List (Module W)) : List (Module W) := coreModule W :: modules

end Verif

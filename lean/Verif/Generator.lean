import Verif.Grammar
import Verif.DataSource
import Verif.Repr

/-!
# The generator

Models `richard/core/BasicGenerator.py`.
-/

namespace Verif

/-- The parts of a write rule besides its syntax (`richard/entity/GrammarRule.py:10-12`): the condition `sem` (`[]` when there is none), `exec` and
`post`. Simplified: `exec` and `post` have no effect on the world. -/
structure WriteSem where
  sem : List Value
  exec : Option (List Value → Except Err Value)
  post : Option (Value → Except Err Value)

/-- Write rules. -/
abbrev WRule := GRule WriteSem

/-- `rule.sem`, `rule.exec`, `rule.post`: `richard/entity/GrammarRule.py:26-28`; a rule without them has `None`. -/
def WRule.parts (r : WRule) : WriteSem :=
  match r.sem with
  | .user a => a
  | _ => ⟨[], none, none⟩

/-- Python's `str`. -/
def pyStr : Value → String
  | .str s => s
  | v => String.ofList (reprV v)

/-- `binding = {}; for variable, value in zip(...): binding[variable] = value`, `richard/core/BasicGenerator.py:105-107`. -/
def anteBinding (variables : List Str) (values : List Value) : Binding :=
  (variables.zip values).foldl (fun b vv => b.set (String.ofList vv.1) vv.2) []

section
variable {W : Type}

/-- The body of the loop of `richard/core/BasicGenerator.py:113-127`: `result_rule` (`found` holds when it is set) and `binding` afterwards.
Taking the first element of a `ResultIterator` is a `TypeError`. -/
def tryWriteRule (api : SolverApi W) (rule : WRule) (res : Option WRule) (b : Binding) : M W (Option WRule × Binding) :=
  match rule.parts.sem with
  | [] => pure (some rule, b)
  | a :: as => do
    match ← api.solve (.list (a :: as)) b with
    | .rows (r :: _) => pure (some rule, r)
    | .iter _ (_ + 1) => M.throw .typeError
    | _ => pure (res, b)

/-- The loop of `richard/core/BasicGenerator.py:98-133`. -/
def findRuleLoop (api : SolverApi W) (used : List Nat) (values : List Value) :
    List WRule → Option WRule → Binding → M W (Option WRule × Binding)
  | [], res, b => pure (res, b)
  | rule :: rules, res, _ => do
    let r ← tryWriteRule api rule res (anteBinding rule.ante.args values)
    if r.1.isSome && !used.contains rule.hash then pure r
    else findRuleLoop api used values rules r.1 r.2

/-- Models `richard/core/BasicGenerator.py:90-135` (`find_rule`). -/
def findRule (api : SolverApi W) (g : Grammar WriteSem) (used : List Nat) (cat : Str) (values : List Value) : M W (Option WRule × Binding) :=
  findRuleLoop api used values (g.findRules cat values.length) none []

/-- Models `richard/core/BasicGenerator.py:71-87` (`get_consequent_values`). -/
def consequentValues (c : Constituent) (b : Binding) : List Value :=
  c.args.map fun a => if c.pos = .word then .str "" else (b.get (String.ofList a)).getD (.str "")

/-- `CATEGORY_VALUE`, `richard/core/constants.py`. -/
def categoryValue : Str := ['v', 'a', 'l', 'u', 'e']
/-- `CATEGORY_TEXT`, `richard/core/constants.py`. -/
def categoryText : Str := ['t', 'e', 'x', 't']
/-- `CATEGORY_FORMAT`, `richard/core/constants.py`. -/
def categoryFormat : Str := ['f', 'o', 'r', 'm', 'a', 't']

/-- `values[0]`, `richard/core/BasicGenerator.py:143,145`. -/
def firstValue : List Value → Except Err Value
  | [] => .error .indexError
  | v :: _ => .ok v

/-- `rule.exec(*values)`, `richard/core/BasicGenerator.py:147`; calling `None` is a `TypeError`. -/
def callExec (rule : WRule) (values : List Value) : Except Err Value :=
  match rule.parts.exec with
  | none => .error .typeError
  | some f => f values

/-- Models `richard/core/BasicGenerator.py:138-151` (`generate_single_consequent`) together with the list `used_rules`, which all calls share;
`node` is `generate_node`. -/
def genConsequent (node : List Nat → Str → List Value → Bool → M W (List Nat × Value)) (rule : WRule) (used : List Nat) (c : Constituent)
    (values : List Value) : M W (List Nat × Value) :=
  if c.pos = .word then pure (used, .str (String.ofList c.predicate))
  else if c.predicate = categoryValue then do
    let v ← M.lift (firstValue values)
    pure (used, v)
  else if c.predicate = categoryText then do
    let v ← M.lift (firstValue values)
    pure (used, .str (pyStr v))
  else if c.predicate = categoryFormat then do
    let v ← M.lift (callExec rule values)
    pure (used, v)
  else node used c.predicate values c.optional

/-- The loop of `richard/core/BasicGenerator.py:39-42`. -/
def genWords (node : List Nat → Str → List Value → Bool → M W (List Nat × Value)) (rule : WRule) (b : Binding) :
    List Constituent → List Nat → M W (List Nat × List Value)
  | [], used => pure (used, [])
  | c :: cs, used => do
    let r ← genConsequent node rule used c (consequentValues c b)
    let rs ← genWords node rule b cs r.1
    pure (rs.1, r.2 :: rs.2)

/-- The words that are strings, `richard/core/BasicGenerator.py:53`. -/
def textsOf : List Value → List String
  | [] => []
  | .str s :: vs => s :: textsOf vs
  | _ :: vs => textsOf vs

/-- Models `richard/core/BasicGenerator.py:53-62`. -/
def combineWords (words : List Value) : Value :=
  let texts := textsOf words
  if texts.length = words.length then .str (String.join texts)
  else match words with
    | [v] => v
    | _ => .list words

/-- Models `richard/core/BasicGenerator.py:65-68`. -/
def postProcess (rule : WRule) (v : Value) : Except Err Value :=
  match rule.parts.post with
  | none => .ok v
  | some f => f v

/-- Models `richard/core/BasicGenerator.py:29-68` (`generate_node`) to depth `n`: the result and the rules used so far. -/
def genNode (api : SolverApi W) (g : Grammar WriteSem) : Nat → List Nat → Str → List Value → Bool → M W (List Nat × Value)
  | 0, _, _, _, _ => M.oof
  | n + 1, used, cat, values, optional => do
    match ← findRule api g used cat values with
    | (some rule, b) => do
      let r ← genWords (genNode api g n) rule b rule.cons (used ++ [rule.hash])
      let v ← M.lift (postProcess rule (combineWords r.2))
      pure (r.1, v)
    | (none, _) =>
      if !optional then M.throw (.exception "No rule found")
      else pure (used, combineWords [])

/-- Models `richard/module/BasicOutputBuffer.py:20-21` (`clear`). -/
def clearBuffer (l : Lens W SimpleStore) : M W Unit := M.modify fun w => l.put SimpleStore.clear w

/-- Models `richard/core/BasicGenerator.py:23-26` (`generate_output`). -/
def generateOutput (api : SolverApi W) (g : Grammar WriteSem) (l : Lens W SimpleStore) (n : Nat) : M W Value := do
  let r ← genNode api g n [] ['s'] [] false
  clearBuffer l
  pure r.2

end

end Verif

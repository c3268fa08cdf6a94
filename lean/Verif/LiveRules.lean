import Verif.Inference

/-!
# The loop over the rules, when rules are learned meanwhile

`handleRule` in `Verif.Inference` reads the rules of the predicate once. Python's `for` goes on with rules that are added to the list during the loop.
Here is the loop of Python.
-/

namespace Verif

variable {W : Type}

/-- `for rule in self.rules[...]` of `richard/module/InferenceModule.py:46-47`: the rule at position `i` of the list as it is then, until there is none.
At most `n` steps; `insert_rule` (lines 25-30) only appends to the list, so that the rules before `i` stay where they are. -/
def liveRules (get : W → InfState) (p : String) (args : List Value) (solver : SolverApi W) (b : Binding) : Nat → Nat → List (List Value) →
    M W (List (List Value))
  | 0, _, _ => M.oof
  | n + 1, i, acc => do
    let s ← M.gets get
    match ((s.rules.get p).getD [])[i]? with
    | none => pure acc
    | some r => do
      let rows ← solveRule r args solver b
      liveRules get p args solver b n (i + 1) (acc ++ rows)

/-- Models `richard/module/InferenceModule.py:44-49` (`handle_rule`), up to `k` rules that are added to the predicate during the loop. -/
def handleRuleLive (k : Nat) (get : W → InfState) (_ : List Value) (ctx : Ctx W) : M W QOut := do
  let s ← M.gets get
  match s.rules.get ctx.predicate with
  | none => M.throw .keyError
  | some rules => do
    let rows ← liveRules get ctx.predicate ctx.arguments ctx.solver ctx.binding (rules.length + 1 + k) 0 []
    pure (.rows rows)

/-- Models `richard/module/InferenceModule.py:11-30` as a module, with the loop of Python. -/
def inferenceModuleLive (k : Nat) (l : Lens W InfState) : Module W where
  relations := fun w p => ((l.get w).relations.get p).map fun f =>
    { predicate := p
      query := match f with
        | .learnRule => learnRule l
        | .handleRule => handleRuleLive k l.get }

end Verif

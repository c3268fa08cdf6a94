import Verif.Core

/-!
# The inference module (`richard/module/InferenceModule.py`)
-/

namespace Verif

variable {W : Type}

/-- `richard/type/InferenceRule.py:5-8`. `head` holds the elements of the head tuple, predicate first. -/
structure Rule where
  head : List Value
  body : Value
  deriving DecidableEq, Repr, Inhabited

/-- Models `richard/type/InferenceRule.py:18-23` (`get_all_variables`). -/
def Rule.variables (r : Rule) : List String := varsOfList r.head ++ varsOf r.body

/-- Which function a relation of the inference module is registered with. -/
inductive InfFun where
  | learnRule
  | handleRule
  deriving DecidableEq, Repr, Inhabited

/-- The mutable state of an `InferenceModule`: the dictionary `relations` inherited from `SomeModule` and the
dictionary `rules` (`richard/module/InferenceModule.py:16-22`). -/
structure InfState where
  relations : Dict InfFun
  rules : Dict (List Rule)
  deriving DecidableEq, Repr, Inhabited

/-- Models `richard/module/InferenceModule.py:19-22` (`__init__`). -/
def InfState.init : InfState := { relations := [("learn_rule", .learnRule)], rules := [] }

/-- `re.fullmatch('[\w_]+', predicate)`, `richard/entity/Relation.py:22`. Simplified: every non-ASCII character counts as a
word character. -/
def isWord (s : String) : Bool :=
  s.toList ≠ [] && s.toList.all fun c => c.isAlphanum || c == '_' || 128 ≤ c.toNat

/-- Models `richard/module/InferenceModule.py:25-30` (`insert_rule`), including the check of the predicate in
`richard/entity/Relation.py:22-23`. -/
def insertRule (r : Rule) (s : InfState) : Except Err InfState :=
  match r.head with
  | [] => .error .indexError
  | .str p :: _ =>
    if isWord p then
      .ok { relations := s.relations.set p .handleRule
            rules := s.rules.set p ((s.rules.get p).getD [] ++ [r]) }
    else .error (.exception "Predicate is not a word")
  | _ => .error .typeError

/-- The loop that initialises the rule's binding, `richard/module/InferenceModule.py:58-85`. `none` stands for
`return []`. -/
def bindHead (b : Binding) : List Value → List Value → Binding → Option Binding
  | ra :: ras, a :: as, rb =>
    let bound := match a with
      | .var n => (b.get n).getD (.var n)
      | a => a
    match ra with
    | .var rn =>
      if bound.isVar then bindHead b ras as rb
      else match rb.get rn with
        | some v => if v ≠ bound then none else bindHead b ras as (rb.set rn bound)
        | none => bindHead b ras as (rb.set rn bound)
    | ra =>
      if bound.isVar then bindHead b ras as rb
      else if bound ≠ ra then none
      else bindHead b ras as rb
  | _, _, rb => some rb

/-- The row built from one solution, `richard/module/InferenceModule.py:96-111`. `none` stands for `return []`. -/
def headRow (solution : Binding) : List Value → List Value → Option (List Value)
  | ra :: ras, .var _ :: as =>
    match ra with
    | .var rn => match solution.get rn with
      | none => none
      | some v => (headRow solution ras as).map (v :: ·)
    | ra => (headRow solution ras as).map (ra :: ·)
  | _ :: ras, a :: as => (headRow solution ras as).map (a :: ·)
  | _, _ => some []

/-- All rows, `richard/module/InferenceModule.py:92-113`. -/
def headRows (ras as : List Value) : List Binding → Option (List (List Value))
  | [] => some []
  | s :: ss => match headRow s ras as with
    | none => none
    | some r => (headRows ras as ss).map (r :: ·)

/-- The row built from an item of a `ResultIterator`, a text (`richard/module/InferenceModule.py:96-111`): a variable of the head is looked for as a
part of the text. -/
def textRow (t : List Char) : List Value → List Value → Except Err (Option (List Value))
  | ra :: ras, .var _ :: as =>
    match ra with
    | .var rn => if rn.toList <:+: t then .error .typeError else .ok none
    | ra => (textRow t ras as).map (Option.map (ra :: ·))
  | _ :: ras, a :: as => (textRow t ras as).map (Option.map (a :: ·))
  | _, _ => .ok (some [])

/-- All rows built from the items of a `ResultIterator`, `richard/module/InferenceModule.py:92-113`. -/
def textRows (ras as : List Value) : List (List Char) → Except Err (Option (List (List Value)))
  | [] => .ok (some [])
  | t :: ts => match textRow t ras as with
    | .error e => .error e
    | .ok none => .ok none
    | .ok (some r) => (textRows ras as ts).map (Option.map (r :: ·))

/-- All rows of a rule, `richard/module/InferenceModule.py:92-113`. -/
def ruleRows (ras as : List Value) : SolOut → M W (List (List Value))
  | .rows sols => pure ((headRows ras as sols).getD [])
  | .iter single n => do
    let rows ← M.lift (textRows ras as (resultItems single n))
    pure (rows.getD [])

/-- `len(rule.body) == 0`, `richard/module/InferenceModule.py:87`. -/
def emptyBody : Value → Bool
  | .list [] => true
  | .tuple [] => true
  | .str "" => true
  | _ => false

/-- Models `richard/module/InferenceModule.py:52-113` (`solve_rule`). -/
def solveRule (rule : Rule) (args : List Value) (solver : SolverApi W) (b : Binding) : M W (List (List Value)) :=
  match bindHead b rule.head.tail args (b.without rule.variables) with
  | none => pure []
  | some rb => do
    let out ← if emptyBody rule.body then pure (.rows [rb]) else solver.solve rule.body rb
    ruleRows rule.head.tail args out

/-- The loop over the rules of a predicate, `richard/module/InferenceModule.py:46-47`. -/
def solveRules (args : List Value) (solver : SolverApi W) (b : Binding) :
    List Rule → List (List Value) → M W (List (List Value))
  | [], acc => pure acc
  | r :: rs, acc => do
    let rows ← solveRule r args solver b
    solveRules args solver b rs (acc ++ rows)

/-- Models `richard/module/InferenceModule.py:44-49` (`handle_rule`). Simplified: the rules of the predicate are read once;
Python's loop also visits rules that are added to the same predicate while the loop runs; this loop is in `Verif.LiveRules`, C106 is about the difference.
`get` reads the module's state from the world. -/
def handleRule (get : W → InfState) (_ : List Value) (ctx : Ctx W) : M W QOut := do
  let s ← M.gets get
  match s.rules.get ctx.predicate with
  | none => M.throw .keyError
  | some rules => do
    let rows ← solveRules ctx.arguments ctx.solver ctx.binding rules []
    pure (.rows rows)

/-- Models `richard/module/InferenceModule.py:117-130` (`learn_rule`). -/
def learnRule (l : Lens W InfState) (values : List Value) (ctx : Ctx W) : M W QOut :=
  match values with
  | [.tuple head, body] => do
    let s ← M.gets l.get
    let s' ← M.lift (insertRule { head := bindVarsList ctx.binding head, body := bindVars ctx.binding body } s)
    M.modify (l.put s')
    pure (.rows [[.none, .none]])
  | [_, _] => M.throw (.exception "The head of a rule must be a single atom")
  | _ => M.throw .valueError

/-- Models `richard/module/InferenceModule.py:11-30` as a module: its relations are those registered so far. -/
def inferenceModule (l : Lens W InfState) : Module W where
  relations := fun w p => ((l.get w).relations.get p).map fun f =>
    { predicate := p
      query := match f with
        | .learnRule => learnRule l
        | .handleRule => handleRule l.get }

end Verif

import Verif.FirstOrder

/-!
# Specification: rules whose bodies contain negation, quantifiers, numbers and alternatives

What a set of such rules says is not a least set of consequences; it is a set of true atoms in which an atom is true precisely if it is stored or
some rule says so (a supported interpretation, the models of Clark's completion). Nothing here depends on how the solver works.
-/

namespace Verif

/-- A rule `p(args) :- body`. The head variables in `given` have a value when the body is read; other head variables get theirs from the body. This
matters for the variables inside `not`, quantifiers and alternatives only. -/
structure FormRule where
  pred : String
  args : List Value
  body : List Form
  given : List String

/-- The rule as the Python code represents it (`richard/type/InferenceRule.py:5-8`). -/
def FormRule.toRule (r : FormRule) : Rule := { head := .str r.pred :: r.args, body := .list (formValues r.body) }

/-- Which ground atoms are true. -/
abbrev Interpretation := String → List Value → Prop

/-- The true atoms as a set of facts without rules. -/
def Interpretation.facts (I : Interpretation) : Program := { facts := I, rules := fun _ _ _ => False }

theorem derivable_facts {I : Interpretation} {p : String} {vals : List Value} : Derivable I.facts p vals ↔ I p vals := by
  constructor
  · intro h
    cases h with
    | fact h => exact h
    | rule σ h _ _ => exact h.elim
  · intro h; exact Derivable.fact (P := I.facts) h

/-- Some way to give values to the variables makes the rule say that the atom with arguments `vals` is true. Variables that are not given and occur
only inside `not`, quantifiers and so on are quantified there. -/
def FormRule.Says (I : Interpretation) (r : FormRule) (vals : List Value) : Prop :=
  ∃ σ : Assignment, (∀ x, Plain (σ x)) ∧ r.args.map (inst σ) = vals ∧ SatAll I.facts r.body (· ∈ r.given) σ

/-- A row of a table. -/
def StoredIn (tables : List (Dict (List (List Value)))) (p : String) (vals : List Value) : Prop :=
  ∃ db ∈ tables, ∃ rows, db.get p = some rows ∧ vals ∈ rows

/-- An atom is true precisely if it is stored, or a rule says so. -/
def Supported (ar : String → Option Nat) (tables : List (Dict (List (List Value)))) (rules : List FormRule) (I : Interpretation) : Prop :=
  ∀ p vals, ar p = some vals.length → (I p vals ↔ StoredIn tables p vals ∨ ∃ r ∈ rules, r.pred = p ∧ r.Says I vals)

mutual
/-- All variables. -/
def Form.vars : Form → List String
  | .atom _ args => argVars args
  | .neg q => formVars q
  | .thereIsNo q => formVars q
  | .thereIs q => formVars q
  | .exactly q n => formVars q ++ argVars [n]
  | .moreThan q n => formVars q ++ argVars [n]
  | .fewerThan q n => formVars q ++ argVars [n]
  | .all x r q => x :: (formVars r ++ formVars q)
  | .count x q => x :: formVars q
  | .either qs => altVars qs
  | .equals a c => argVars [a, c]
  | .greater a c => argVars [a, c]
  | .less a c => argVars [a, c]
  | .assign x v => x :: argVars [v]
  | .times a c x => argVars [a, c] ++ [x]
/-- Those of a query. -/
def formVars : List Form → List String
  | [] => []
  | f :: fs => f.vars ++ formVars fs
/-- Those of alternatives. -/
def altVars : List (List Form) → List String
  | [] => []
  | q :: qs => formVars q ++ altVars qs
end

/-- The variables for which it matters whether they are known already. -/
def Form.inner : Form → List String
  | .neg q => formVars q
  | .thereIsNo q => formVars q
  | .thereIs q => formVars q
  | .exactly q _ => formVars q
  | .moreThan q _ => formVars q
  | .fewerThan q _ => formVars q
  | .all x r q => x :: (formVars r ++ formVars q)
  | .count _ q => formVars q
  | .either qs => altVars qs
  | _ => []

/-- Where it matters, the same variables are known. -/
def FormsSame : List Form → (String → Prop) → (String → Prop) → Prop
  | [], _, _ => True
  | f :: fs, B, B' => (∀ x ∈ f.inner, B x ↔ B' x) ∧ FormsSame fs (Known.more B f.binds) (Known.more B' f.binds)

/-- The head variables with known values. -/
def FormRule.known (r : FormRule) (κ : Nat → Prop) : String → Prop := fun x => ∃ i, r.args[i]? = some (.var x) ∧ κ i

/-- However the predicate may be asked, the rule's body is a proper query, it makes no difference which head variables are known, and after it all
are. -/
structure FormRuleOk (ar : String → Option Nat) (calls : Calls) (r : FormRule) : Prop where
  arity : ar r.pred = some r.args.length
  args : ArgsOk r.args
  body : ∀ κ, calls r.pred κ → FormsOk ar r.body (r.known κ)
  called : ∀ κ, calls r.pred κ → FormsCalled calls r.body (r.known κ)
  same : ∀ κ, calls r.pred κ → FormsSame r.body (r.known κ) (· ∈ r.given)
  bound : ∀ κ, calls r.pred κ → ∀ x, .var x ∈ r.args → r.known κ x ∨ x ∈ formBinds r.body

end Verif

import Verif.Inference
import Verif.DedupLemmas
import Verif.Tables

/-!
# Specification: logical consequence of facts and rules

Nothing in this file depends on how the solver or the inference module works; only the *link* between a run-time state and
the program it represents (`factsOf`, `rulesOf`) mentions the model.
-/

namespace Verif

/-- An assignment of values to all variables. -/
abbrev Assignment := String → Value

/-- Instance of an argument. -/
def inst (σ : Assignment) : Value → Value
  | .var x => σ x
  | v => v

/-- A query or rule body: predicates with arguments. -/
abbrev Query := List (String × List Value)

/-- The atom as the Python code represents it. -/
def toAtom (a : String × List Value) : Value := .tuple (.str a.1 :: a.2)

/-- The list of atoms as the Python code represents it. -/
def toQuery (q : Query) : Value := .list (q.map toAtom)

/-- Facts and rules. -/
structure Program where
  facts : String → List Value → Prop
  rules : String → List Value → Query → Prop

/-- A proper value: not `None`, no variable, and all variables nested in it have legal names. -/
def Plain (v : Value) : Prop := v ≠ .none ∧ v.isVar = false ∧ legal v = true

/-- Logical consequence: the least set of ground atoms that contains the facts and is closed under the rules. -/
inductive Derivable (P : Program) : String → List Value → Prop
  | fact {p row} : P.facts p row → Derivable P p row
  | rule {p hargs body} (σ : Assignment) : P.rules p hargs body → (∀ x, Plain (σ x)) →
      (∀ a ∈ body, Derivable P a.1 (a.2.map (inst σ))) → Derivable P p (hargs.map (inst σ))

/-- Variables that are direct arguments of the atoms. -/
def queryVars (q : Query) : List String := q.flatMap fun a => a.2.filterMap fun v => match v with
  | .var x => some x
  | _ => none

theorem mem_queryVars {q : Query} {x : String} : x ∈ queryVars q ↔ ∃ a ∈ q, Value.var x ∈ a.2 := by
  simp only [queryVars, List.mem_flatMap, List.mem_filterMap]
  constructor
  · rintro ⟨a, ha, v, hv, h⟩
    refine ⟨a, ha, ?_⟩
    cases v <;> simp at h
    subst h; exact hv
  · rintro ⟨a, ha, h⟩; exact ⟨a, ha, .var x, h, rfl⟩

/-- Every variable of a rule head occurs in the rule's body. -/
def RangeRestricted (P : Program) : Prop :=
  ∀ p hargs body, P.rules p hargs body → ∀ x, Value.var x ∈ hargs → x ∈ queryVars body

section
variable {W : Type}

/-- The relation that the inference module registers for a predicate with rules,
`richard/module/InferenceModule.py:27`. -/
def ruleRelation (l : W → InfState) (p : String) : Relation W := { predicate := p, query := handleRule l }

/-- In this world, the relation answers every query with the rows, among the given ones, that agree with the values asked for. -/
def TableLike (r : Relation W) (w : W) (rows : List (List Value)) : Prop :=
  ∀ values ctx, r.query values ctx w = .ok w (.rows (rows.filter (rowMatches values)))

/-- The program that the modules hold in the world: the rows of the tables, the rules of the inference module. -/
def programOf (mods : List (Module W)) (l : W → InfState) (w : W) : Program where
  facts p row := ∃ r ∈ findRelations mods w p, ∃ rows, TableLike r w rows ∧ row ∈ rows
  rules p hargs body := ruleRelation l p ∈ findRelations mods w p ∧ ∃ rs, (l w).rules.get p = some rs ∧
    { head := .str p :: hargs, body := toQuery body } ∈ rs

/-- Arguments are variables or proper values. -/
def ArgsOk (args : List Value) : Prop := ∀ a ∈ args, a.isVar = false → Plain a

/-- A query uses the predicates of the program with the right number of arguments. -/
def QueryOk (ar : String → Option Nat) (q : Query) : Prop := ∀ a ∈ q, ar a.1 = some a.2.length ∧ ArgsOk a.2

/-- The modules hold a program whose predicates (those with an arity in `ar`) are defined by tables and rules only, each used with
one arity. -/
structure WellFormed (mods : List (Module W)) (l : W → InfState) (w : W) (ar : String → Option Nat) : Prop where
  noDisj : ar "$disjunction" = none
  defined : ∀ p k, ar p = some k → findRelations mods w p ≠ []
  kinds : ∀ p k, ar p = some k → ∀ r ∈ findRelations mods w p, (∃ rows, TableLike r w rows) ∨ r = ruleRelation l p
  factsOk : ∀ p k, ar p = some k → ∀ r ∈ findRelations mods w p, ∀ rows, TableLike r w rows →
    ∀ row ∈ rows, row.length = k ∧ ∀ v ∈ row, Plain v
  rulesSome : ∀ p k, ar p = some k → ruleRelation l p ∈ findRelations mods w p → ∃ rs, (l w).rules.get p = some rs
  rulesOk : ∀ p k, ar p = some k → ∀ rs, (l w).rules.get p = some rs → ∀ r ∈ rs, ∃ hargs body,
    r = { head := .str p :: hargs, body := toQuery body } ∧ hargs.length = k ∧ ArgsOk hargs ∧ QueryOk ar body

end

end Verif

import Verif.Datalog

/-!
# Specification: queries with negation, quantifiers, numbers and alternatives

Queries as the rules of a grammar build them, and what it means that values for the variables satisfy them. Nothing here depends on how the
solver works.
-/

namespace Verif

/-- A part of a query. The names of the core module's relations (`richard/module/CoreModule.py:13-36`) are given by `Form.toValue`. -/
inductive Form where
  | atom (p : String) (args : List Value)
  | neg (q : List Form)
  | thereIsNo (q : List Form)
  | thereIs (q : List Form)
  | exactly (q : List Form) (n : Value)
  | moreThan (q : List Form) (n : Value)
  | fewerThan (q : List Form) (n : Value)
  | all (x : String) (range body : List Form)
  | count (x : String) (q : List Form)
  | either (qs : List (List Form))
  | equals (a c : Value)
  | greater (a c : Value)
  | less (a c : Value)
  | assign (x : String) (v : Value)
  | times (a c : Value) (x : String)

mutual
/-- The atom that the programmer writes. -/
def Form.toValue : Form → Value
  | .atom p args => .tuple (.str p :: args)
  | .neg q => .tuple [.str "not", .list (formValues q)]
  | .thereIsNo q => .tuple [.str "none", .list (formValues q)]
  | .thereIs q => .tuple [.str "scoped", .list (formValues q)]
  | .exactly q n => .tuple [.str "det_equals", .list (formValues q), n]
  | .moreThan q n => .tuple [.str "det_greater_than", .list (formValues q), n]
  | .fewerThan q n => .tuple [.str "det_less_than", .list (formValues q), n]
  | .all x r q => .tuple [.str "all", .var x, .list (formValues r), .list (formValues q)]
  | .count x q => .tuple [.str "count", .var x, .list (formValues q)]
  | .either qs => .tuple [.str "$disjunction", .list (altValues qs)]
  | .equals a c => .tuple [.str "equals", a, c]
  | .greater a c => .tuple [.str "greater_than", a, c]
  | .less a c => .tuple [.str "less_than", a, c]
  | .assign x v => .tuple [.str "let", .var x, v]
  | .times a c x => .tuple [.str "multiply", a, c, .var x]
/-- The atoms of a query. -/
def formValues : List Form → List Value
  | [] => []
  | f :: fs => f.toValue :: formValues fs
/-- The alternatives. -/
def altValues : List (List Form) → List Value
  | [] => []
  | q :: qs => .list (formValues q) :: altValues qs
end

/-- The variables among arguments. -/
def argVars (args : List Value) : List String := args.filterMap fun v => match v with
  | .var x => some x
  | _ => Option.none

mutual
/-- The variables that get a value; those inside `not`, determiners and so on do not. -/
def Form.binds : Form → List String
  | .atom _ args => argVars args
  | .all x _ _ => [x]
  | .count x _ => [x]
  | .either qs => altBinds qs
  | .equals a c => argVars [a, c]
  | .assign x _ => [x]
  | .times _ _ x => [x]
  | _ => []
/-- Those of a query. -/
def formBinds : List Form → List String
  | [] => []
  | f :: fs => f.binds ++ formBinds fs
/-- Those of alternatives; all alternatives are required to bind the same. -/
def altBinds : List (List Form) → List String
  | [] => []
  | q :: _ => formBinds q
end

/-- The known variables after more have been given values. -/
def Known.more (B : String → Prop) (xs : List String) : String → Prop := fun x => B x ∨ x ∈ xs

/-- `τ` gives proper values and agrees with `σ` on the known variables. -/
def AgreeOn (B : String → Prop) (σ τ : Assignment) : Prop := (∀ x, Plain (τ x)) ∧ ∀ x, B x → τ x = σ x

/-- There are exactly `k` ways to give values to the variables in `V`. -/
def HasCount (V : String → Prop) (S : Assignment → Prop) (k : Nat) : Prop :=
  ∃ L : List Assignment, L.length = k ∧ (∀ τ ∈ L, S τ) ∧ L.Pairwise (fun τ τ' => ∃ x, V x ∧ τ x ≠ τ' x) ∧
    ∀ τ, S τ → ∃ τ' ∈ L, ∀ x, V x → τ x = τ' x

mutual
/-- The order of values: numbers by size, texts by code points, lists and tuples by their first difference. -/
inductive Less : Value → Value → Prop
  | num {a b : Rat} : a < b → Less (.num a) (.num b)
  | str {a b : String} : a < b → Less (.str a) (.str b)
  | list {a b : List Value} : LessLex a b → Less (.list a) (.list b)
  | tuple {a b : List Value} : LessLex a b → Less (.tuple a) (.tuple b)
/-- The order of lists. -/
inductive LessLex : List Value → List Value → Prop
  | nil {y ys} : LessLex [] (y :: ys)
  | head {x y xs ys} : x ≠ y → Less x y → LessLex (x :: xs) (y :: ys)
  | tail {x xs ys} : LessLex xs ys → LessLex (x :: xs) (x :: ys)
end

mutual
/-- The values `σ` satisfy the part of the query, when the variables in `B` are known from outside. Variables inside `not`, `none`, `scoped`,
`count` and the determiners that are not known are quantified there. Alternatives: the first one that can be satisfied at all counts. -/
def Sat (P : Program) : Form → (String → Prop) → Assignment → Prop
  | .atom p args, _, σ => Derivable P p (args.map (inst σ))
  | .neg q, B, σ => ¬ ∃ τ, AgreeOn B σ τ ∧ SatAll P q B τ
  | .thereIsNo q, B, σ => ¬ ∃ τ, AgreeOn B σ τ ∧ SatAll P q B τ
  | .thereIs q, B, σ => ∃ τ, AgreeOn B σ τ ∧ SatAll P q B τ
  | .exactly q n, B, σ => ∃ k : Nat, HasCount (Known.more B (formBinds q)) (fun τ => AgreeOn B σ τ ∧ SatAll P q B τ) k ∧ inst σ n = .num k
  | .moreThan q n, B, σ => ∃ (k : Nat) (r : Rat), HasCount (Known.more B (formBinds q)) (fun τ => AgreeOn B σ τ ∧ SatAll P q B τ) k ∧
      inst σ n = .num r ∧ r < k
  | .fewerThan q n, B, σ => ∃ (k : Nat) (r : Rat), HasCount (Known.more B (formBinds q)) (fun τ => AgreeOn B σ τ ∧ SatAll P q B τ) k ∧
      inst σ n = .num r ∧ (k : Rat) < r
  | .all x r q, B, σ => (∃ τ, AgreeOn B σ τ ∧ SatAll P r B τ ∧ τ x = σ x) ∧
      ∀ τ, AgreeOn B σ τ → SatAll P r B τ → ∃ τ', AgreeOn (Known.more B [x]) τ τ' ∧ SatAll P q (Known.more B [x]) τ'
  | .count x q, B, σ => ∃ k : Nat, HasCount (Known.more B (formBinds q)) (fun τ => AgreeOn B σ τ ∧ SatAll P q B τ) k ∧ σ x = .num k
  | .either qs, B, σ => SatFirst P qs B σ
  | .equals a c, _, σ => inst σ a = inst σ c
  | .greater a c, _, σ => Less (inst σ c) (inst σ a)
  | .less a c, _, σ => Less (inst σ a) (inst σ c)
  | .assign x v, _, σ => σ x = inst σ v
  | .times a c x, _, σ => ∃ q r : Rat, inst σ a = .num q ∧ inst σ c = .num r ∧ σ x = .num (q * r)
/-- All parts of a query, each knowing the variables of those before it. -/
def SatAll (P : Program) : List Form → (String → Prop) → Assignment → Prop
  | [], _, _ => True
  | f :: fs, B, σ => Sat P f B σ ∧ SatAll P fs (Known.more B f.binds) σ
/-- The first alternative that can be satisfied. -/
def SatFirst (P : Program) : List (List Form) → (String → Prop) → Assignment → Prop
  | [], _, _ => False
  | q :: qs, B, σ => SatAll P q B σ ∨ ((¬ ∃ τ, AgreeOn B σ τ ∧ SatAll P q B τ) ∧ SatFirst P qs B σ)
end

/-- A proper value, or a known variable. -/
def Given (B : String → Prop) : Value → Prop
  | .var x => B x
  | v => Plain v

mutual
/-- Predicates have their number of arguments; numbers that are compared with are known; quantified variables, and those that take a result,
are new; alternatives bind the same variables. -/
def Form.Ok (ar : String → Option Nat) : Form → (String → Prop) → Prop
  | .atom p args, _ => ar p = some args.length ∧ ArgsOk args
  | .neg q, B => FormsOk ar q B
  | .thereIsNo q, B => FormsOk ar q B
  | .thereIs q, B => FormsOk ar q B
  | .exactly q n, B => FormsOk ar q B ∧ Given B n
  | .moreThan q n, B => FormsOk ar q B ∧ Given B n
  | .fewerThan q n, B => FormsOk ar q B ∧ Given B n
  | .all x r q, B => ¬ B x ∧ x ∈ formBinds r ∧ FormsOk ar r B ∧ FormsOk ar q (Known.more B [x])
  | .count x q, B => ¬ B x ∧ FormsOk ar q B
  | .either qs, B => AltsOk ar qs B ∧ ∀ q ∈ qs, ∀ x, Known.more B (formBinds q) x ↔ Known.more B (altBinds qs) x
  | .equals a c, _ => ArgsOk [a, c]
  | .greater a c, _ => ArgsOk [a, c]
  | .less a c, _ => ArgsOk [a, c]
  | .assign x v, B => ¬ B x ∧ Given B v
  | .times a c x, B => ¬ B x ∧ Given B a ∧ Given B c
/-- Each part, knowing the variables of those before it. -/
def FormsOk (ar : String → Option Nat) : List Form → (String → Prop) → Prop
  | [], _ => True
  | f :: fs, B => f.Ok ar B ∧ FormsOk ar fs (Known.more B f.binds)
/-- Each alternative. -/
def AltsOk (ar : String → Option Nat) : List (List Form) → (String → Prop) → Prop
  | [], _ => True
  | q :: qs, B => FormsOk ar q B ∧ AltsOk ar qs B
end

/-- Which arguments of a predicate may be known, and which unknown, when it is asked: `calls p κ` says that `p` may be asked with known values
for precisely the argument positions in `κ`. -/
abbrev Calls := String → (Nat → Prop) → Prop

/-- The argument positions with known values. -/
def knownAt (B : String → Prop) (args : List Value) : Nat → Prop := fun i => ∃ a, args[i]? = some a ∧ Given B a

mutual
/-- All predicates are asked as they may be. -/
def Form.Called (calls : Calls) : Form → (String → Prop) → Prop
  | .atom p args, B => calls p (knownAt B args)
  | .neg q, B => FormsCalled calls q B
  | .thereIsNo q, B => FormsCalled calls q B
  | .thereIs q, B => FormsCalled calls q B
  | .exactly q _, B => FormsCalled calls q B
  | .moreThan q _, B => FormsCalled calls q B
  | .fewerThan q _, B => FormsCalled calls q B
  | .all x r q, B => FormsCalled calls r B ∧ FormsCalled calls q (Known.more B [x])
  | .count _ q, B => FormsCalled calls q B
  | .either qs, B => AltsCalled calls qs B
  | _, _ => True
/-- In each part, knowing the variables of those before it. -/
def FormsCalled (calls : Calls) : List Form → (String → Prop) → Prop
  | [], _ => True
  | f :: fs, B => f.Called calls B ∧ FormsCalled calls fs (Known.more B f.binds)
/-- In each alternative. -/
def AltsCalled (calls : Calls) : List (List Form) → (String → Prop) → Prop
  | [], _ => True
  | q :: qs, B => FormsCalled calls q B ∧ AltsCalled calls qs B
end

mutual
/-- How deep solving nests, when `rank` bounds it for the predicates. -/
def Form.depth (rank : String → Nat) : Form → Nat
  | .atom p _ => rank p + 1
  | .neg q => formsDepth rank q + 1
  | .thereIsNo q => formsDepth rank q + 1
  | .thereIs q => formsDepth rank q + 1
  | .exactly q _ => formsDepth rank q + 1
  | .moreThan q _ => formsDepth rank q + 1
  | .fewerThan q _ => formsDepth rank q + 1
  | .all _ r q => max (formsDepth rank r) (formsDepth rank q) + 1
  | .count _ q => formsDepth rank q + 1
  | .either qs => altsDepth rank qs + 1
  | _ => 1
/-- The depth of a query. -/
def formsDepth (rank : String → Nat) : List Form → Nat
  | [] => 1
  | f :: fs => max (f.depth rank) (formsDepth rank fs)
/-- The depth of the alternatives. -/
def altsDepth (rank : String → Nat) : List (List Form) → Nat
  | [] => 0
  | q :: qs => max (formsDepth rank q) (altsDepth rank qs)
end

end Verif

import Verif.Value

/-!
# Grammar rules, the grammar index, parse trees and their ranking

Models `richard/entity/RuleConstituent.py`, `richard/entity/GrammarRule.py`, `richard/entity/GrammarRules.py`,
`richard/entity/ParseTreeNode.py` and `richard/processor/parser/tree_sort_heuristics`.
-/

namespace Verif

/-- Text. -/
abbrev Str := List Char

/-- Models `richard/core/constants.py` (`POS_TYPE_RELATION`, `POS_TYPE_WORD_FORM`, `POS_TYPE_REG_EXP`). -/
inductive PosType where
  | relation
  | word
  | regexp
deriving DecidableEq, Repr

/-- Models `richard/entity/RuleConstituent.py:6-23`. The field `hash` is a function of the other fields and is taken up in `GRule.hash`. -/
structure Constituent where
  predicate : Str
  args : List Str
  pos : PosType
  optional : Bool := false
  separator : Bool := false
deriving DecidableEq, Repr

/-- Models `richard/entity/RuleConstituent.py:26-36` (`equals`). -/
def Constituent.equals (a b : Constituent) : Bool :=
  if a.predicate ≠ b.predicate then false
  else if a.args.length ≠ b.args.length then false
  else if a.pos ≠ b.pos then false
  else true

/-- What is attached to a rule: nothing (`sem=None`), the functions and options given in the grammar, the `lambda s: s` of the
start rules (`richard/processor/parser/earley/EarleyParser.py:68`) or the `lambda: word` of a scanned regular expression
(`EarleyParser.py:144-145`). -/
inductive RuleSem (A : Type) where
  | none
  | user (a : A)
  | ident
  | word (w : Str)
deriving DecidableEq, Repr

/-- Models `richard/entity/GrammarRule.py:6-35`. `sem`, `exec`, `post` and `dialog` are kept together in `sem`. -/
structure GRule (A : Type) where
  ante : Constituent
  cons : List Constituent
  sem : RuleSem A
  boost : Int
  hash : Nat
deriving DecidableEq, Repr

namespace GRule
variable {A : Type}

/-- Models `richard/entity/GrammarRule.py:17-35` (`__init__`). `H` stands for Python's hash of the antecedent and the consequents; nothing
is assumed about it. -/
def new (H : Constituent → List Constituent → Nat) (ante : Constituent) (cons : List Constituent) (sem : RuleSem A) (boost : Int := 0) :
    GRule A :=
  ⟨ante, cons, sem, boost, H ante cons⟩

/-- The loop in `richard/entity/GrammarRule.py:43-48` after the lengths have been found equal. -/
def equalsConsequents : List Constituent → List Constituent → Bool
  | a :: as, b :: bs => if !a.equals b then false else equalsConsequents as bs
  | _, _ => true

/-- Models `richard/entity/GrammarRule.py:38-50` (`equals`). -/
def equals (r s : GRule A) : Bool :=
  if !r.ante.equals s.ante then false
  else if r.cons.length ≠ s.cons.length then false
  else equalsConsequents r.cons s.cons

end GRule

/-! ## GrammarRules -/

section
variable {A : Type}

/-- Models `richard/entity/GrammarRules.py:55-81` (`create_rule_variants_rest`). `first` is `index == 0`; the list is
`rule.consequents[index:]`. -/
def variantsRest (first : Bool) : List Constituent → List (List Constituent) → List (List Constituent)
  | [], variants => variants
  | [c], variants =>
    if c.optional then variantsRest false [] (variants.map (fun v => v ++ [c]) ++ variants)
    else variantsRest false [] (variants.map fun v => v ++ [c])
  | c :: look :: rest, variants =>
    if first && c.optional && !c.separator && look.separator then
      variantsRest false rest (variants.map (fun v => v ++ [c, look]) ++ variants)
    else if c.separator && look.optional && !look.separator then
      variantsRest false rest (variants.map (fun v => v ++ [c, look]) ++ variants)
    else if c.optional then
      variantsRest false (look :: rest) (variants.map (fun v => v ++ [c]) ++ variants)
    else
      variantsRest false (look :: rest) (variants.map fun v => v ++ [c])

/-- Models `richard/entity/GrammarRules.py:43-52` (`create_rule_variants`): the copies keep the hash of the original. -/
def ruleVariants (rule : GRule A) : List (GRule A) :=
  (variantsRest true rule.cons [[]]).map fun cons => { rule with cons := cons }

/-- Dictionaries with other keys than strings: association lists in order of insertion. -/
abbrev Assoc (K V : Type) := List (K × V)

/-- `key in dict` and `dict[key]`. -/
def Assoc.get {K V : Type} [DecidableEq K] : Assoc K V → K → Option V
  | [], _ => none
  | (k', v) :: rest, k => if k' = k then some v else Assoc.get rest k

/-- `dict[key] = value`. -/
def Assoc.set {K V : Type} [DecidableEq K] : Assoc K V → K → V → Assoc K V
  | [], k, v => [(k, v)]
  | (k', v') :: rest, k, v => if k' = k then (k', v) :: rest else (k', v') :: Assoc.set rest k v

/-- Models `richard/entity/GrammarRules.py:5-7` (`GrammarRules.index`). -/
abbrev Grammar (A : Type) := Assoc Str (Assoc Nat (List (GRule A)))

namespace Grammar

/-- Models `richard/entity/GrammarRules.py:16-27` (`add_rule`). -/
def addRule (g : Grammar A) (rule : GRule A) : Grammar A :=
  let antecedent := rule.ante.predicate
  let count := rule.ante.args.length
  let g := if (g.get antecedent).isNone then g.set antecedent [] else g
  let inner := (g.get antecedent).getD []
  let inner := if (inner.get count).isNone then inner.set count [] else inner
  let rules := (inner.get count).getD []
  g.set antecedent (inner.set count (rules ++ ruleVariants rule))

/-- Models `richard/entity/GrammarRules.py:10-13` (`__init__`). -/
def new (rules : List (GRule A)) : Grammar A := rules.foldl addRule []

/-- Models `richard/entity/GrammarRules.py:30-34` (`find_rules`). -/
def findRules (g : Grammar A) (antecedent : Str) (count : Nat) : List (GRule A) :=
  match g.get antecedent with
  | some inner => match inner.get count with
    | some rules => rules
    | none => []
  | none => []

/-- Models `richard/entity/GrammarRules.py:36-40` (`find_argument_counts`), of which only the keys are used. -/
def findArgumentCounts (g : Grammar A) (antecedent : Str) : List Nat :=
  match g.get antecedent with
  | some inner => inner.map Prod.fst
  | none => []

end Grammar

/-! ## Parse trees -/

/-- Models `richard/entity/ParseTreeNode.py:7-12`. -/
inductive ParseTree (A : Type) where
  | node (category : Str) (children : List (ParseTree A)) (form : Str) (rule : GRule A)

namespace ParseTree

/-- `tree.category` (`richard/entity/ParseTreeNode.py:9`). -/
def category : ParseTree A → Str
  | node c _ _ _ => c

/-- `tree.children` (`richard/entity/ParseTreeNode.py:10`). -/
def children : ParseTree A → List (ParseTree A)
  | node _ cs _ _ => cs

/-- `tree.form` (`richard/entity/ParseTreeNode.py:11`). -/
def form : ParseTree A → Str
  | node _ _ f _ => f

/-- `tree.rule` (`richard/entity/ParseTreeNode.py:12`). -/
def rule : ParseTree A → GRule A
  | node _ _ _ r => r

end ParseTree

/-! ## Ranking -/

/-- Puts `x` before the first element that does not come before it. -/
def insertByKey {α : Type} (key : α → Int) (x : α) : List α → List α
  | [] => [x]
  | y :: ys => if key x ≤ key y then x :: y :: ys else y :: insertByKey key x ys

/-- Python's `list.sort(key=...)`, which is stable, as an insertion sort. -/
def sortByKey {α : Type} (key : α → Int) : List α → List α
  | [] => []
  | x :: xs => insertByKey key x (sortByKey key xs)

mutual
/-- Models `richard/processor/parser/tree_sort_heuristics/SortByBoost.py:20-26` (`get_boost`). -/
def getBoost : ParseTree A → Int
  | .node _ cs _ r => addBoosts cs r.boost
/-- The loop in `SortByBoost.py:23-24`. -/
def addBoosts : List (ParseTree A) → Int → Int
  | [], b => b
  | c :: cs, b => addBoosts cs (b + getBoost c)
end

mutual
/-- Models `richard/processor/parser/tree_sort_heuristics/SortByRegExpCount.py:21-29` (`count_tokens`). -/
def countTokens : ParseTree A → Int
  | .node _ cs _ r => addTokens cs (if r.ante.pos = .regexp then 1 else 0)
/-- The loop in `SortByRegExpCount.py:26-27`. -/
def addTokens : List (ParseTree A) → Int → Int
  | [], n => n
  | c :: cs, n => addTokens cs (n + countTokens c)
end

mutual
/-- Models `richard/processor/parser/tree_sort_heuristics/SortByTreeDepth.py:20-26` (`get_depth`). -/
def getDepth (base : Int) : ParseTree A → Int
  | .node _ cs _ _ => minDepth base cs (base - 1)
/-- The loop in `SortByTreeDepth.py:23-24`. -/
def minDepth (base : Int) : List (ParseTree A) → Int → Int
  | [], d => d
  | c :: cs, d => minDepth base cs (min d (getDepth (base - 1) c))
end

/-- Models `richard/processor/parser/tree_sort_heuristics/SortByTreeDepth.py:8-17` (`sort`). -/
def sortByTreeDepth (trees : List (ParseTree A)) : List (ParseTree A) := sortByKey (getDepth 0) trees

/-- Models `richard/processor/parser/tree_sort_heuristics/SortByRegExpCount.py:9-18` (`sort`). -/
def sortByRegExpCount (trees : List (ParseTree A)) : List (ParseTree A) := sortByKey countTokens trees

/-- Models `richard/processor/parser/tree_sort_heuristics/SortByBoost.py:8-17` (`sort`). -/
def sortByBoost (trees : List (ParseTree A)) : List (ParseTree A) := sortByKey (fun t => - getBoost t) trees

/-- Models `richard/processor/parser/tree_sort_heuristics/BasicParseTreeSortHeuristics.py:8-13` (`sort_trees`). -/
def sortTrees (trees : List (ParseTree A)) : List (ParseTree A) := sortByBoost (sortByRegExpCount (sortByTreeDepth trees))

end

end Verif

import Verif.Quantified
import Verif.Composer
import Verif.Props.Template
import Verif.Props.Meaning

/-!
# How the functions of a grammar build meanings from parts

The parts of `Verif.Quantified` written as expressions of the functions `sem` of a grammar, with `apply` of
`richard/processor/parser/helper/grammar_functions.py` (see `tests/unit/Quantifier_test.py:69-102` for grammars in this style).
-/

namespace Verif

/-- The atom as it is written in the grammar. -/
def Basic.written : Basic → Value
  | .atom p args => .tuple (.str p :: args)
  | .equals a c => .tuple [.str "equals", a, c]
  | .greater a c => .tuple [.str "greater_than", a, c]
  | .less a c => .tuple [.str "less_than", a, c]
  | .assign x v => .tuple [.str "let", .var x, v]

/-- The name of the predicate. -/
def Quant.name : Quant → String
  | .isNot => "not"
  | .isNone => "none"
  | .isScoped => "scoped"

/-- The name of the predicate. -/
def Numeral.name : Numeral → String
  | .exactly => "det_equals"
  | .moreThan => "det_greater_than"
  | .fewerThan => "det_less_than"

/-- The atoms of a query. -/
def atomsOf : Value → Except Err (List Value)
  | .list vs => .ok vs
  | _ => .error .typeError

mutual
/-- The value of the expression: `names` are the slots of the template that the rule makes, `C i` is the meaning of the `i`-th consequent. -/
def evalPart (names : List String) (C : Nat → Value) : Part → Except Err (List Value)
  | .basic b => .ok [b.written]
  | .quant k _ q => match evalAll names C q with
    | .error e => .error e
    | .ok vs => .ok [.tuple [.str k.name, .list vs]]
  | .number k _ q n => match evalAll names C q with
    | .error e => .error e
    | .ok vs => .ok [.tuple [.str k.name, .list vs, n]]
  | .all x r q => match evalAll names C r with
    | .error e => .error e
    | .ok vs => match evalAll names C q with
      | .error e => .error e
      | .ok us => .ok [.tuple [.str "all", .var x, .list vs, .list us]]
  | .hole j => .ok [.str (names.getD j "")]
  | .app i es => match evalMany names C es with
    | .error e => .error e
    | .ok vs => if es.isEmpty then atomsOf (C i) else applyTemplate (C i) vs
/-- The values of all parts, in one list. -/
def evalAll (names : List String) (C : Nat → Value) : List Part → Except Err (List Value)
  | [] => .ok []
  | p :: ps => match evalPart names C p with
    | .error e => .error e
    | .ok vs => match evalAll names C ps with
      | .error e => .error e
      | .ok us => .ok (vs ++ us)
/-- The values of the arguments of `apply`. -/
def evalMany (names : List String) (C : Nat → Value) : List (List Part) → Except Err (List (List Value))
  | [] => .ok []
  | e :: es => match evalAll names C e with
    | .error e => .error e
    | .ok vs => match evalMany names C es with
      | .error e => .error e
      | .ok us => .ok (vs :: us)
end

/-- What the rule makes: a query, or a template if there are slots. -/
def wrapUp (names : List String) (vs : List Value) : Value := if names.isEmpty then .list vs else .tmpl (names.map slot) vs

/-- The texts in an argument. -/
def namesWithin : Value → List String
  | .str s => [s]
  | _ => []

/-- The names and texts that are written in an atom. -/
def Basic.texts : Basic → List String
  | .atom p args => p :: args.flatMap namesWithin
  | .equals a c => "equals" :: (namesWithin a ++ namesWithin c)
  | .greater a c => "greater_than" :: (namesWithin a ++ namesWithin c)
  | .less a c => "less_than" :: (namesWithin a ++ namesWithin c)
  | .assign _ v => "let" :: namesWithin v

mutual
/-- The names and texts that are written in a part. -/
def textsIn : Part → List String
  | .basic b => b.texts
  | .quant k _ q => k.name :: textsAll q
  | .number k _ q n => k.name :: (textsAll q ++ namesWithin n)
  | .all _ r q => "all" :: (textsAll r ++ textsAll q)
  | .hole _ => []
  | .app _ es => textsMany es
/-- Those of all parts. -/
def textsAll : List Part → List String
  | [] => []
  | p :: ps => textsIn p ++ textsAll ps
/-- Those of all fillings. -/
def textsMany : List (List Part) → List String
  | [] => []
  | e :: es => textsAll e ++ textsMany es
end

/-! ## Trees -/

/-- What a node of a parse tree means: a number, a text or the like, or what a phrase says about values (see `phraseDen`). -/
inductive NodeMeaning where
  | value (v : Value)
  | phrase (D : (Nat → List Value → Prop) → List Value → Prop)

/-- What the function `sem` of a rule makes: a value, or a query or template built from parts. -/
inductive RuleParts where
  | value (v : Value)
  | parts (names : List String) (e : List Part)

/-- The values among the meanings. -/
def valuesIn (ms : List (Option NodeMeaning)) : List Value := ms.filterMap fun m => match m with
  | some (.value v) => some v
  | _ => none

/-- What the `i`-th child says, if it is a phrase. -/
def phraseAt (ms : List (Option NodeMeaning)) (i : Nat) : (Nat → List Value → Prop) → List Value → Prop := match ms[i]? with
  | some (some (.phrase D)) => D
  | _ => fun _ _ => False

/-- The arguments of the `i`-th consequent. -/
def consArgs (r : GRule Attachment) (i : Nat) : List String := match r.cons[i]? with
  | some k => argNames k
  | none => []

mutual
/-- What a tree means, when `spec` gives the parts for each rule and the values among the meanings of its consequents. -/
def nodeMeaning (P : Program) (spec : GRule Attachment → List Value → RuleParts) : ParseTree Attachment → NodeMeaning
  | .node _ cs _ r => match spec r (valuesIn (nodeMeanings P spec cs)) with
    | .value v => .value v
    | .parts _ e => .phrase (phraseDen P (consArgs r) (phraseAt (nodeMeanings P spec cs)) (argNames r.ante) e)
/-- What the children mean. A leaf has a meaning only if its rule has a function `sem`. -/
def nodeMeanings (P : Program) (spec : GRule Attachment → List Value → RuleParts) : List (ParseTree Attachment) → List (Option NodeMeaning)
  | [] => []
  | .node cat cs form r :: ts => (if cs.isEmpty then (leafSem r)[0]?.map .value else some (nodeMeaning P spec (.node cat cs form r))) ::
      nodeMeanings P spec ts
end

/-- The arguments with which the function `sem` of a rule is called, when `vs` are the composed meanings of the children. -/
def childArgs : List (Option NodeMeaning) → List Value → List Value
  | none :: ms, _ :: vs => childArgs ms vs
  | some (.value v) :: ms, _ :: vs => v :: childArgs ms vs
  | some (.phrase _) :: ms, v :: vs => v :: childArgs ms vs
  | _, _ => []

/-- The variables that are arguments of the atoms themselves, not of what is nested in these. -/
def outerVars : Part → List String
  | .basic b => b.vars
  | .number _ _ _ n => argVars [n]
  | .all x _ _ => [x]
  | _ => []

/-- What a rule with signature `sg` is checked against: its consequents have the signatures of the rules that are used for them. -/
def typingOf (ar : String → Option Nat) (sigs : GRule Attachment → Sig) (cs : List (ParseTree Attachment)) (sg : Sig)
    (r : GRule Attachment) : Typing where
  ar := ar
  args := consArgs r
  sig := fun i => match cs[i]? with
    | some c => sigs c.rule
    | none => ⟨[], [], [], true⟩
  ante := argNames r.ante
  slot := sg.slot

/-- The parts are as they should be. `R` are the names that are used for slots. -/
structure PartsOk (ar : String → Option Nat) (R : List String) (sigs : GRule Attachment → Sig) (cs : List (ParseTree Attachment))
    (ms : List (Option NodeMeaning)) (sg : Sig) (r : GRule Attachment) (names : List String) (e : List Part) : Prop where
  fits : fitsRule (typingOf ar sigs cs sg r) sg e = true
  slots : names.length = sg.slots.length
  nodup : names.Nodup
  reserved : ∀ s ∈ names, s ∈ R
  holes : ∀ j ∈ holesAll e, j < names.length
  texts : ∀ t ∈ textsAll e, t ∉ R
  kids : ∀ i ∈ kidsAll e, ∃ c k D, cs[i]? = some c ∧ r.cons[i]? = some k ∧ c.children ≠ [] ∧ ms[i]? = some (some (.phrase D)) ∧
    k.args.length = c.rule.ante.args.length
  vars : ∀ y ∈ everyVarAll (consArgs r) (argNames r.ante) e, y ∈ formalNames r ∨ (names = [] ∧ y ∈ e.flatMap outerVars)
  own : ∀ y ∈ everyVarAll (consArgs r) (argNames r.ante) e, isGenName y = false

/-- The rule of this node makes what `spec` says. -/
structure SpecNode (ar : String → Option Nat) (P : Program) (R : List String) (sigs : GRule Attachment → Sig)
    (spec : GRule Attachment → List Value → RuleParts) (cs : List (ParseTree Attachment)) (r : GRule Attachment) : Prop where
  length : r.cons.length = cs.length
  names : ∀ x ∈ formalNames r, isGenName x = false
  nodup : (argNames r.ante).Nodup
  value : ∀ v, spec r (valuesIn (nodeMeanings P spec cs)) = .value v → deepVars v = [] ∧
    ∀ f, semOf r.sem = some f → ∀ vs s, vs.length = cs.length → f (childArgs (nodeMeanings P spec cs) vs) = .ok s → s = v
  parts : ∀ names e, spec r (valuesIn (nodeMeanings P spec cs)) = .parts names e → PartsOk ar R sigs cs (nodeMeanings P spec cs) (sigs r) r names e ∧
    ∀ f, semOf r.sem = some f → ∀ vs us s, vs.length = cs.length → evalAll names (fun i => vs.getD i .none) e = .ok us →
      f (childArgs (nodeMeanings P spec cs) vs) = .ok s → s = wrapUp names us

mutual
/-- All nodes other than leaves do. -/
def SpecTree (ar : String → Option Nat) (P : Program) (R : List String) (sigs : GRule Attachment → Sig)
    (spec : GRule Attachment → List Value → RuleParts) : ParseTree Attachment → Prop
  | .node _ cs _ r => (cs ≠ [] → SpecNode ar P R sigs spec cs r) ∧ SpecTrees ar P R sigs spec cs
/-- The same for all trees of a list. -/
def SpecTrees (ar : String → Option Nat) (P : Program) (R : List String) (sigs : GRule Attachment → Sig)
    (spec : GRule Attachment → List Value → RuleParts) : List (ParseTree Attachment) → Prop
  | [] => True
  | t :: ts => SpecTree ar P R sigs spec t ∧ SpecTrees ar P R sigs spec ts
end

end Verif

import Verif.Grammar
import Verif.Monad
import Verif.Atoms
import Verif.Digits

/-!
# Semantic composition (`richard/processor/semantic_composer`, `richard/processor/parser/helper/grammar_functions.py`)
-/

namespace Verif

/-! ## Template application -/

mutual
/-- Models `richard/processor/parser/helper/grammar_functions.py:14-26` (`replace`) on the elements of a list or tuple.
Simplified: the replacement is a list (Python accepts any iterable). -/
def replaceIn (token : Value) (rep : List Value) : List Value → List Value
  | [] => []
  | a :: rest => if a = token then rep ++ replaceIn token rep rest else replaceOne token rep a :: replaceIn token rep rest
/-- The branches for elements other than the token, `grammar_functions.py:19-24`; line 26 gives a list for a list, a tuple for a tuple. -/
def replaceOne (token : Value) (rep : List Value) : Value → Value
  | .tuple xs => .tuple (replaceIn token rep xs)
  | .list xs => .list (replaceIn token rep xs)
  | v => v
end

/-- `template.args[i][0]` for the first element of `args`, `grammar_functions.py:8`. A string gives its first character. -/
def slotToken : Value → Except Err Value
  | .list (t :: _) => .ok t
  | .tuple (t :: _) => .ok t
  | .list [] => .error .indexError
  | .tuple [] => .error .indexError
  | .str s => match s.toList with
    | [] => .error .indexError
    | c :: _ => .ok (.str (String.ofList [c]))
  | _ => .error .typeError

/-- The loop `grammar_functions.py:7-9`: slots and values are gone through in step; more values than slots is an `IndexError`. -/
def applyLoop : List Value → List (List Value) → List Value → Except Err (List Value)
  | _, [], body => .ok body
  | [], _ :: _, _ => .error .indexError
  | a :: args, v :: vs, body =>
    match slotToken a with
    | .error e => .error e
    | .ok t => applyLoop args vs (replaceIn t v body)

/-- Models `grammar_functions.py:5-11` (`apply`). Anything but a template has no `body`. -/
def applyTemplate (template : Value) (values : List (List Value)) : Except Err (List Value) :=
  match template with
  | .tmpl args body => applyLoop args values body
  | _ => .error .attributeError

/-! ## Variables -/

/-- State of `richard/processor/semantic_composer/helper/VariableGenerator.py:4-12`. The field `issued` is not in the code: it lists the names
handed out so far, oldest first, so that theorems can speak about them. -/
structure Gen where
  number : Nat
  issued : List String
deriving DecidableEq, Repr

/-- `self.prefix + str(self.number)` with the prefix of `SemanticComposer.py:30`; `VariableGenerator.py:17`. -/
def genName (n : Nat) : String := String.ofList ('$' :: showNat n)

/-- Models `VariableGenerator.py:10-12` (`__init__`). -/
def Gen.init : Gen := ⟨0, []⟩

/-- Models `VariableGenerator.py:15-17` (`next`). -/
def genNext : M Gen String := fun g => .ok ⟨g.number + 1, g.issued ++ [genName (g.number + 1)]⟩ (genName (g.number + 1))

/-- Models `VariableGenerator.py:24-25` (`isinstance`): the name starts with the prefix `$`. -/
def isGenName (n : String) : Bool := decide (n.toList.head? = some '$')

/-! ## Composition -/

/-- What a grammar rule brings to the composition: `sem`, `exec` and `dialog` of `richard/entity/GrammarRule.py:10-13`.
The Python functions are pure functions of the child semantics; a wrong number of arguments is one of the exceptions they
may raise. A `dialog` list is a constant function. Simplified: `exec` and `dialog` return lists. -/
structure Attachment where
  sem : Option (List Value → Except Err Value)
  exec : Option (List Value → Except Err (List Value)) := none
  dialog : List Value → Except Err (List Value) := fun _ => .ok []

/-- `rule.sem`, or `none` if it is `None`. The two fixed functions are those of
`richard/processor/parser/earley/EarleyParser.py:68,144-145`. -/
def semOf : RuleSem Attachment → Option (List Value → Except Err Value)
  | .none => none
  | .user a => a.sem
  | .ident => some fun cs => match cs with
    | [s] => .ok s
    | _ => .error .typeError
  | .word w => some fun cs => match cs with
    | [] => .ok (.str (String.ofList w))
    | _ => .error .typeError

/-- `rule.exec` (`richard/entity/GrammarRule.py:11`). -/
def execOf : RuleSem Attachment → Option (List Value → Except Err (List Value))
  | .user a => a.exec
  | _ => none

/-- `if node.rule.exec: executable = node.rule.exec(*child_semantics)`, `SemanticComposer.py:92-93`. -/
def execResult (s : RuleSem Attachment) (sems executable : List Value) : Except Err (List Value) :=
  match execOf s with
  | some g => g sems
  | none => .ok executable

/-- `rule.dialog` applied to the child semantics, or the list itself (`SemanticComposer.py:95-98`). -/
def dialogOf : RuleSem Attachment → List Value → Except Err (List Value)
  | .user a => a.dialog
  | _ => fun _ => .ok []

/-- Names of the variables of a constituent, as strings (`richard/entity/RuleConstituent.py:9`). -/
def argNames (c : Constituent) : List String := c.args.map String.ofList

/-- The loop over the arguments of the antecedent, `SemanticComposer.py:118-119`. -/
def anteMap : List String → List String → Dict String → Except Err (Dict String)
  | [], _, d => .ok d
  | a :: as, v :: vs, d => anteMap as vs (d.set a v)
  | _ :: _, [], _ => .error .indexError

/-- The loop over the arguments of the consequents, `SemanticComposer.py:122-125`. -/
def consMap : List String → Dict String → M Gen (Dict String)
  | [], d => pure d
  | a :: as, d => if d.has a then consMap as d else do
    let v ← genNext
    consMap as (d.set a v)

/-- Models `SemanticComposer.py:115-127` (`create_map`). -/
def createMap (r : GRule Attachment) (incoming : List String) : M Gen (Dict String) := do
  let d ← M.lift (anteMap (argNames r.ante) incoming [])
  consMap (r.cons.flatMap argNames) d

/-- The elements that `for arg in atom` goes through, `SemanticComposer.py:134`. A string gives its characters, none of
which is a variable. -/
def iterItems : Value → Except Err (List Value)
  | .tuple xs => .ok xs
  | .list xs => .ok xs
  | .str _ => .ok []
  | _ => .error .typeError

/-- The inner loop `SemanticComposer.py:134-137`. -/
def extendArgs : List Value → Dict String → M Gen (Dict String)
  | [], d => pure d
  | .var x :: as, d => if !d.has x && !isGenName x then do
      let v ← genNext
      extendArgs as (d.set x v)
    else extendArgs as d
  | _ :: as, d => extendArgs as d

/-- The outer loop `SemanticComposer.py:133`. -/
def extendAtoms : List Value → Dict String → M Gen (Dict String)
  | [], d => pure d
  | a :: as, d => do
    let items ← M.lift (iterItems a)
    let d' ← extendArgs items d
    extendAtoms as d'

/-- Models `SemanticComposer.py:130-137` (`extend_map_with_semantics`). -/
def extendMap (d : Dict String) : Value → M Gen (Dict String)
  | .list atoms => extendAtoms atoms d
  | _ => pure d

mutual
/-- Models `SemanticComposer.py:140-152` (`unify_variables`). -/
def unify (d : Dict String) : Value → Value
  | .list xs => .list (unifyList d xs)
  | .tuple xs => .tuple (unifyList d xs)
  | .tmpl args body => .tmpl args (unifyList d body)
  | .var x => match d.get x with
    | some y => .var y
    | none => .var x
  | .rvar x => match d.get x with
    | some y => .str y
    | none => .rvar x
  | v => v
/-- The list comprehensions of `SemanticComposer.py:142,144`. -/
def unifyList (d : Dict String) : List Value → List Value
  | [] => []
  | x :: xs => unify d x :: unifyList d xs
end

/-- `[map[arg] for arg in consequent.arguments]`, `SemanticComposer.py:80`. -/
def mapAll (d : Dict String) : List String → Except Err (List String)
  | [] => .ok []
  | a :: as => match d.get a with
    | none => .error .keyError
    | some v => match mapAll d as with
      | .error e => .error e
      | .ok vs => .ok (v :: vs)

/-- The triple returned by `compose` (`SemanticComposer.py:112`). The field `maps` is not in the code: it holds the final local variable
`map` of this call and of all calls below it, with the position of the node in the tree, so that theorems can speak about them. -/
structure Composed where
  sem : Value
  inferences : List Value
  executable : List Value
  maps : List (List Nat × Dict String)

/-- What the loop `SemanticComposer.py:78-86` accumulates. -/
structure ChildParts where
  sems : List Value
  inferences : List Value
  executable : List Value
  maps : List (List Nat × Dict String)

mutual
/-- Models `SemanticComposer.py:67-112` (`compose`). -/
def compose : ParseTree Attachment → List String → M Gen Composed
  | .node _ children _ rule, incoming => do
    let d ← createMap rule incoming
    let parts ← composeChildren children rule.cons d 0 ⟨[], [], [], []⟩
    match semOf rule.sem with
    | none => M.throw .typeError
    | some f => do
      let semantics ← M.lift (f parts.sems)
      let executable ← M.lift (execResult rule.sem parts.sems parts.executable)
      let dialog ← M.lift (dialogOf rule.sem parts.sems)
      let d' ← extendMap d semantics
      pure ⟨unify d' semantics, unifyList d' (parts.inferences ++ dialog), unifyList d' executable, ([], d') :: parts.maps⟩
/-- The loop `SemanticComposer.py:78-86`; `i` is the number of the child, used only for `maps`. -/
def composeChildren : List (ParseTree Attachment) → List Constituent → Dict String → Nat → ChildParts → M Gen ChildParts
  | [], _, _, _, acc => pure acc
  | _ :: _, [], _, _, acc => pure acc
  | .node cat cs form rule :: rest, k :: ks, d, i, acc =>
    if cs.isEmpty then
      match semOf rule.sem with
      | none => composeChildren rest ks d (i + 1) acc
      | some f => do
        let s ← M.lift (f [])
        composeChildren rest ks d (i + 1) ⟨acc.sems ++ [s], acc.inferences, acc.executable, acc.maps⟩
    else do
      let incoming ← M.lift (mapAll d (argNames k))
      let c ← compose (.node cat cs form rule) incoming
      composeChildren rest ks d (i + 1) ⟨acc.sems ++ [c.sem], acc.inferences ++ c.inferences, acc.executable ++ c.executable,
        acc.maps ++ c.maps.map fun m => (i :: m.1, m.2)⟩
end

mutual
/-- Models `SemanticComposer.py:59-64` (`check_for_sem`); `false` stands for the exception. -/
def checkForSem : ParseTree Attachment → Bool
  | .node _ children form rule => !(form.isEmpty && (semOf rule.sem).isNone) && checkAllForSem children
/-- The loop `SemanticComposer.py:63-64`. -/
def checkAllForSem : List (ParseTree Attachment) → Bool
  | [] => true
  | t :: ts => checkForSem t && checkAllForSem ts
end

/-- The list comprehension of `SemanticComposer.py:44`. -/
def nextVars : List Str → M Gen (List String)
  | [] => pure []
  | _ :: as => do
    let v ← genNext
    let vs ← nextVars as
    pure (v :: vs)

/-- Models `SemanticComposer.py:37-56` (`process`): root variables and the composed meaning, before optimisation. -/
def composeSentence (t : ParseTree Attachment) : M Gen (List String × Composed) :=
  if !checkForSem t then M.throw (.exception "Rule is missing key 'sem'")
  else do
    let roots ← nextVars t.rule.ante.args
    let c ← compose t roots
    pure (roots, c)

end Verif

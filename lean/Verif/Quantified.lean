import Verif.FirstOrder

/-!
# Specification: what sentences with quantifiers mean

The meanings that rules of a grammar build from atoms, negation, determiners, the meanings of their consequents, and templates: what these say
about values, in the style of generalised quantifiers. A noun phrase such as `every parent` is a template: given a property, it says
something. Nothing here depends on how the composer names variables, how templates are filled, or how the solver works.
-/

namespace Verif

/-- Atoms, and the comparisons of the core module (`richard/module/CoreModule.py:13-36`). -/
inductive Basic where
  | atom (p : String) (args : List Value)
  | equals (a c : Value)
  | greater (a c : Value)
  | less (a c : Value)
  | assign (x : String) (v : Value)
deriving DecidableEq

/-- The predicates `not`, `none` and `scoped` (`CoreModule.py:24,28,32`). -/
inductive Quant where
  | isNot
  | isNone
  | isScoped
deriving DecidableEq

/-- The predicates `det_equals`, `det_greater_than` and `det_less_than` (`CoreModule.py:25-27`). -/
inductive Numeral where
  | exactly
  | moreThan
  | fewerThan
deriving DecidableEq

/-- A part of the meaning that a rule builds. The variables are those of the rule. The lists `xs` and the names `x` say which of them are
quantified by the part; in the code this is not written down.
* `hole j`: the `j`-th slot of the template that the rule makes;
* `app i es`: the template of the `i`-th consequent, applied to `es`, or the meaning of the `i`-th consequent itself, if `es` is empty. -/
inductive Part where
  | basic (b : Basic)
  | quant (k : Quant) (xs : List String) (q : List Part)
  | number (k : Numeral) (x : String) (q : List Part) (n : Value)
  | all (x : String) (r q : List Part)
  | hole (j : Nat)
  | app (i : Nat) (es : List (List Part))

/-! ## Truth -/

/-- Another value for one variable. -/
def setVal (τ : Assignment) (x : String) (v : Value) : Assignment := fun y => if y = x then v else τ y

/-- Other values for some variables. -/
def setAll (τ : Assignment) (xs : List String) (vs : List Value) : Assignment := fun y =>
  if y ∈ xs then (vs[xs.idxOf y]?).getD .none else τ y

/-- `τ'` gives proper values to the variables `xs`, and differs from `τ` in these at most. -/
def Varies (xs : List String) (τ τ' : Assignment) : Prop := (∀ x ∈ xs, Plain (τ' x)) ∧ ∀ x, x ∉ xs → τ' x = τ x

/-- There are exactly `k` values with the property. -/
def CountOf (S : Value → Prop) (k : Nat) : Prop := ∃ L : List Value, L.length = k ∧ L.Nodup ∧ ∀ v, v ∈ L ↔ S v

/-- The atom or comparison is true of the values. -/
def Basic.holds (P : Program) (τ : Assignment) : Basic → Prop
  | .atom p args => Derivable P p (args.map (inst τ))
  | .equals a c => inst τ a = inst τ c
  | .greater a c => Less (inst τ c) (inst τ a)
  | .less a c => Less (inst τ a) (inst τ c)
  | .assign x v => τ x = inst τ v

/-- Not, none, some. -/
def Quant.holds (p : Prop) : Quant → Prop
  | .isNot => ¬ p
  | .isNone => ¬ p
  | .isScoped => p

/-- How the number of values compares to the number given. -/
def Numeral.holds (k : Nat) (n : Value) : Numeral → Prop
  | .exactly => n = .num k
  | .moreThan => ∃ r : Rat, n = .num r ∧ r < k
  | .fewerThan => ∃ r : Rat, n = .num r ∧ (k : Rat) < r

/-- What the truth of the meaning of a rule depends on: the program, the arguments of the consequents, what the consequents mean, the arguments
of the antecedent, and the properties that fill the slots. What a consequent means: given properties for the slots, what it says about
the values of its arguments. -/
structure Setting where
  P : Program
  args : Nat → List String
  den : Nat → (Nat → List Value → Prop) → List Value → Prop
  ante : List String
  slots : Nat → List Value → Prop

mutual
/-- The part is true of the values. -/
def truth (S : Setting) : Part → Assignment → Prop
  | .basic b, τ => b.holds S.P τ
  | .quant k xs q, τ => k.holds (∃ τ', Varies xs τ τ' ∧ truthAll S q τ')
  | .number k x q n, τ => ∃ c : Nat, CountOf (fun v => Plain v ∧ truthAll S q (setVal τ x v)) c ∧ k.holds c (inst τ n)
  | .all x r q, τ => truthAll S r τ ∧ ∀ v, Plain v → truthAll S r (setVal τ x v) → truthAll S q (setVal τ x v)
  | .hole j, τ => S.slots j (S.ante.map τ)
  | .app i es, τ => S.den i (fun j vals => truthNth S es j (setAll τ (S.args i) vals)) ((S.args i).map τ)
/-- All parts are. -/
def truthAll (S : Setting) : List Part → Assignment → Prop
  | [], _ => True
  | p :: ps, τ => truth S p τ ∧ truthAll S ps τ
/-- The `j`-th is. -/
def truthNth (S : Setting) : List (List Part) → Nat → Assignment → Prop
  | [], _, _ => True
  | e :: _, 0, τ => truthAll S e τ
  | _ :: es, j + 1, τ => truthNth S es j τ
end

/-- What a phrase says about the values of its arguments: there are values for the variables of the rule, these for the arguments, that make all
parts true. -/
def phraseDen (P : Program) (args : Nat → List String) (den : Nat → (Nat → List Value → Prop) → List Value → Prop) (ante : List String)
    (e : List Part) : (Nat → List Value → Prop) → List Value → Prop := fun slots vals =>
  ∃ τ : Assignment, (∀ x, Plain (τ x)) ∧ ante.map τ = vals ∧ truthAll ⟨P, args, den, ante, slots⟩ e τ

/-! ## Which variables are known -/

/-- What is required of an argument before a phrase is evaluated: it has a value, it has none, or either. -/
inductive Mode where
  | known
  | new
  | any
deriving DecidableEq

/-- What a phrase promises and requires for one of its slots: the arguments that have a value when the slot is evaluated (`before`), the arguments
that have one afterwards (`after`); with `closed`, all other variables of the filling must be known; with `tight`, the filling may only
give values to variables that it shares with its surroundings. -/
structure SlotSig where
  before : List Bool
  after : List Bool
  closed : Bool
  tight : Bool
deriving DecidableEq

/-- The same for a phrase: what it requires of its arguments, the arguments that surely have a value afterwards, its slots, and whether it gives
values to no other variables than its arguments. -/
structure Sig where
  modes : List Mode
  after : List Bool
  slots : List SlotSig
  tight : Bool
deriving DecidableEq

/-- The signature of a slot. -/
def Sig.slot (s : Sig) (j : Nat) : SlotSig := s.slots.getD j ⟨[], [], true, true⟩

/-- The names with the flag. -/
def flagged (xs : List String) (fs : List Bool) : List String := (xs.zip fs).filterMap fun p => if p.2 then some p.1 else none

/-- What the parts of a rule are checked against: the numbers of arguments of predicates, the arguments of consequents, their signatures, the
arguments of the antecedent, and the signatures of the slots of the rule. -/
structure Typing where
  ar : String → Option Nat
  args : Nat → List String
  sig : Nat → Sig
  ante : List String
  slot : Nat → SlotSig

/-- The variables in it. -/
def Basic.vars : Basic → List String
  | .atom _ args => argVars args
  | .equals a c => argVars [a, c]
  | .greater a c => argVars [a, c]
  | .less a c => argVars [a, c]
  | .assign x v => x :: argVars [v]

/-- The variables that surely have a value afterwards. -/
def Basic.gives : Basic → List String
  | .atom _ args => argVars args
  | .equals a c => argVars [a, c]
  | .greater _ _ => []
  | .less _ _ => []
  | .assign x _ => [x]

mutual
/-- The variables of the part that are not quantified in it. -/
def freeVars (args : Nat → List String) (ante : List String) : Part → List String
  | .basic b => b.vars
  | .quant _ xs q => (freeVarsAll args ante q).filter fun x => !xs.contains x
  | .number _ x q n => (freeVarsAll args ante q).filter (fun y => !(y == x)) ++ argVars [n]
  | .all x r q => x :: (freeVarsAll args ante r ++ freeVarsAll args ante q)
  | .hole _ => ante
  | .app i es => args i ++ freeVarsMany args ante es
/-- Those of all parts. -/
def freeVarsAll (args : Nat → List String) (ante : List String) : List Part → List String
  | [] => []
  | p :: ps => freeVars args ante p ++ freeVarsAll args ante ps
/-- Those of all fillings. -/
def freeVarsMany (args : Nat → List String) (ante : List String) : List (List Part) → List String
  | [] => []
  | e :: es => freeVarsAll args ante e ++ freeVarsMany args ante es
end

mutual
/-- All variables of the part. -/
def everyVar (args : Nat → List String) (ante : List String) : Part → List String
  | .basic b => b.vars
  | .quant _ xs q => xs ++ everyVarAll args ante q
  | .number _ x q n => x :: (everyVarAll args ante q ++ argVars [n])
  | .all x r q => x :: (everyVarAll args ante r ++ everyVarAll args ante q)
  | .hole _ => ante
  | .app i es => args i ++ everyVarMany args ante es
/-- Those of all parts. -/
def everyVarAll (args : Nat → List String) (ante : List String) : List Part → List String
  | [] => []
  | p :: ps => everyVar args ante p ++ everyVarAll args ante ps
/-- Those of all fillings. -/
def everyVarMany (args : Nat → List String) (ante : List String) : List (List Part) → List String
  | [] => []
  | e :: es => everyVarAll args ante e ++ everyVarMany args ante es
end

mutual
/-- The slots that are used. -/
def holesOf : Part → List Nat
  | .basic _ => []
  | .quant _ _ q => holesAll q
  | .number _ _ q _ => holesAll q
  | .all _ r q => holesAll r ++ holesAll q
  | .hole j => [j]
  | .app _ es => holesMany es
/-- Those of all parts. -/
def holesAll : List Part → List Nat
  | [] => []
  | p :: ps => holesOf p ++ holesAll ps
/-- Those of all fillings. -/
def holesMany : List (List Part) → List Nat
  | [] => []
  | e :: es => holesAll e ++ holesMany es
end

mutual
/-- The consequents that are used. -/
def kidsOf : Part → List Nat
  | .basic _ => []
  | .quant _ _ q => kidsAll q
  | .number _ _ q _ => kidsAll q
  | .all _ r q => kidsAll r ++ kidsAll q
  | .hole _ => []
  | .app i es => i :: kidsMany es
/-- Those of all parts. -/
def kidsAll : List Part → List Nat
  | [] => []
  | p :: ps => kidsOf p ++ kidsAll ps
/-- Those of all fillings. -/
def kidsMany : List (List Part) → List Nat
  | [] => []
  | e :: es => kidsAll e ++ kidsMany es
end

/-- The variables that surely have a value after the part. -/
def givesOf (Γ : Typing) : Part → List String
  | .basic b => b.gives
  | .quant _ _ _ => []
  | .number _ _ _ _ => []
  | .all x _ _ => [x]
  | .hole j => flagged Γ.ante (Γ.slot j).after
  | .app i _ => flagged (Γ.args i) (Γ.sig i).after

/-- After all parts. -/
def givesAll (Γ : Typing) (ps : List Part) : List String := ps.flatMap (givesOf Γ)

/-- The part gives values to its own free variables only. -/
def tightPart (Γ : Typing) : Part → Bool
  | .hole j => (Γ.slot j).tight
  | .app i _ => (Γ.sig i).tight
  | _ => true

/-- All parts do. -/
def tightAll (Γ : Typing) (ps : List Part) : Bool := ps.all (tightPart Γ)

/-- An argument of an atom: a variable, a number or a text. -/
def simpleArg : Value → Bool
  | .var _ => true
  | .num _ => true
  | .str _ => true
  | _ => false

/-- A number or a text, or a variable that is known. -/
def givenArg (K : List String) : Value → Bool
  | .var x => K.contains x
  | .num _ => true
  | .str _ => true
  | _ => false

/-- All of them are among these. -/
def within (xs ys : List String) : Bool := xs.all ys.contains

/-- The arguments are as required. -/
def modesFit (K T : List String) : List Mode → List String → Bool
  | [], [] => true
  | m :: ms, x :: xs => (match m with
    | .known => K.contains x
    | .new => !T.contains x
    | .any => true) && modesFit K T ms xs
  | _, _ => false

/-- The atom or comparison is as it should be, when the variables `K` are known and those outside `T` are not. -/
def Basic.fits (ar : String → Option Nat) (K T : List String) : Basic → Bool
  | .atom p args => decide (ar p = some args.length) && args.all simpleArg
  | .equals a c => simpleArg a && simpleArg c
  | .greater a c => simpleArg a && simpleArg c
  | .less a c => simpleArg a && simpleArg c
  | .assign x v => !T.contains x && givenArg K v

mutual
/-- The part is as it should be, when the variables `K` are known and those outside `T` are not: what is quantified is not known; inside
`not` and determiners everything else is; a count is a count of the values of one variable; the arguments of consequents are as these
require, and so are the fillings of their slots. -/
def fitsPart (Γ : Typing) : Part → List String → List String → Bool
  | .basic b, K, T => b.fits Γ.ar K T
  | .quant _ xs q, K, T => fitsAll Γ q K T && xs.all (fun x => !T.contains x) && within (freeVarsAll Γ.args Γ.ante q) (K ++ xs) &&
      (holesAll q).all fun j => (Γ.slot j).closed
  | .number _ x q n, K, T => fitsAll Γ q K T && !T.contains x && within (freeVarsAll Γ.args Γ.ante q) (x :: K) &&
      (holesAll q).all (fun j => (Γ.slot j).closed) && (givesAll Γ q).contains x && tightAll Γ q && givenArg K n
  | .all x r q, K, T => !T.contains x && fitsAll Γ r K T && (givesAll Γ r).contains x && within (freeVarsAll Γ.args Γ.ante r) (x :: K) &&
      fitsAll Γ q (x :: K) (x :: T) && within (freeVarsAll Γ.args Γ.ante q) (x :: K) &&
      (holesAll r).all (fun j => (Γ.slot j).closed) && (holesAll q).all fun j => (Γ.slot j).closed
  | .hole j, K, _ => within (flagged Γ.ante (Γ.slot j).before) K
  | .app i es, K, T => decide (Γ.args i).Nodup && modesFit K T (Γ.sig i).modes (Γ.args i) && decide (es.length = (Γ.sig i).slots.length) &&
      fitsMany Γ i 0 es K T
/-- The parts are, one after the other. -/
def fitsAll (Γ : Typing) : List Part → List String → List String → Bool
  | [], _, _ => true
  | p :: ps, K, T => fitsPart Γ p K T && fitsAll Γ ps (K ++ givesOf Γ p) (T ++ freeVars Γ.args Γ.ante p)
/-- The fillings of the slots of the `i`-th consequent, from the `j`-th on, are. Only the last one uses slots of the rule itself. Different
fillings share only known variables and arguments of the consequent. -/
def fitsMany (Γ : Typing) (i : Nat) : Nat → List (List Part) → List String → List String → Bool
  | _, [], _, _ => true
  | j, e :: es, K, T =>
    let s := (Γ.sig i).slot j
    fitsAll Γ e (K ++ flagged (Γ.args i) s.before) (T ++ Γ.args i) &&
    within (flagged (Γ.args i) s.after) (K ++ flagged (Γ.args i) s.before ++ givesAll Γ e) &&
    (!s.closed || (within (freeVarsAll Γ.args Γ.ante e) (K ++ Γ.args i) && (holesAll e).all fun j => (Γ.slot j).closed)) &&
    (!s.tight || tightAll Γ e) &&
    (es.isEmpty || (holesAll e).isEmpty) &&
    (everyVarAll Γ.args Γ.ante e).all (fun x => !(freeVarsMany Γ.args Γ.ante es).contains x || (K ++ Γ.args i).contains x) &&
    (everyVarMany Γ.args Γ.ante es).all (fun x => !(freeVarsAll Γ.args Γ.ante e).contains x || (K ++ Γ.args i).contains x) &&
    fitsMany Γ i (j + 1) es K T
end

/-- The arguments that are known from the start. -/
def knownAtStart : List Mode → List String → List String
  | .known :: ms, x :: xs => x :: knownAtStart ms xs
  | _ :: ms, _ :: xs => knownAtStart ms xs
  | _, _ => []

/-- The arguments that may be known from the start. -/
def maybeAtStart : List Mode → List String → List String
  | .new :: ms, _ :: xs => maybeAtStart ms xs
  | _ :: ms, x :: xs => x :: maybeAtStart ms xs
  | _, _ => []

/-- The meaning of a rule fits its signature. Each consequent and each slot is used once at most. -/
def fitsRule (Γ : Typing) (s : Sig) (e : List Part) : Bool :=
  decide Γ.ante.Nodup && decide (s.modes.length = Γ.ante.length) && decide (holesAll e).Nodup && decide (kidsAll e).Nodup &&
  fitsAll Γ e (knownAtStart s.modes Γ.ante) (maybeAtStart s.modes Γ.ante) &&
  within (flagged Γ.ante s.after) (knownAtStart s.modes Γ.ante ++ givesAll Γ e) &&
  (!s.tight || (tightAll Γ e && within (freeVarsAll Γ.args Γ.ante e) Γ.ante))

end Verif

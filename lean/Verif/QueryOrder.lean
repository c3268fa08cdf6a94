import Verif.RuleForms

/-!
# Specification: queries whose order does not matter

When the parts of a query can change places (which variables occur in them is in `Verif.RuleForms`). Nothing here depends on how the optimiser works.
-/

namespace Verif

/-- A fact or an equation: it binds all of its variables, and it does not matter which of them are known before. -/
def Form.isFact : Form → Bool
  | .atom _ _ => true
  | .equals _ _ => true
  | _ => false

/-- Alternatives. -/
def Form.isEither : Form → Bool
  | .either _ => true
  | _ => false

/-- What a part that is not a fact or an equation shares with the rest of the query, is known when its turn comes, or is a variable that only
this part binds. Alternatives share only what is known from outside with what binds it. -/
def Ordered (q : List Form) (B : String → Prop) : Prop :=
  ∀ l1 f l2, q = l1 ++ f :: l2 → f.isFact = false → ∀ x ∈ f.vars,
    (x ∈ formVars (l1 ++ l2) → B x ∨ x ∈ formBinds l1 ∨ (x ∈ f.binds ∧ x ∉ formBinds l2)) ∧
    (f.isEither = true → x ∈ formBinds (l1 ++ l2) → B x)

mutual
/-- The queries inside the part are `Ordered`, at any depth, except inside alternatives. -/
def Form.Tidy : Form → (String → Prop) → Prop
  | .neg q, B => Ordered q B ∧ FormsTidy q B
  | .thereIsNo q, B => Ordered q B ∧ FormsTidy q B
  | .thereIs q, B => Ordered q B ∧ FormsTidy q B
  | .exactly q _, B => Ordered q B ∧ FormsTidy q B
  | .moreThan q _, B => Ordered q B ∧ FormsTidy q B
  | .fewerThan q _, B => Ordered q B ∧ FormsTidy q B
  | .all x r q, B => Ordered r B ∧ FormsTidy r B ∧ Ordered q (Known.more B [x]) ∧ FormsTidy q (Known.more B [x])
  | .count _ q, B => Ordered q B ∧ FormsTidy q B
  | _, _ => True
/-- Those inside the parts of a query. -/
def FormsTidy : List Form → (String → Prop) → Prop
  | [], _ => True
  | f :: fs, B => f.Tidy B ∧ FormsTidy fs (Known.more B f.binds)
end

/-- A variable, a number or a text. -/
def Simple : Value → Prop
  | .var _ => True
  | .num _ => True
  | .str _ => True
  | _ => False

mutual
/-- All arguments are variables, numbers and texts; no names are resolved. -/
def Form.Simple : Form → Prop
  | .atom p args => p ≠ "resolve_name" ∧ ∀ v ∈ args, Verif.Simple v
  | .neg q => FormsSimple q
  | .thereIsNo q => FormsSimple q
  | .thereIs q => FormsSimple q
  | .exactly q n => FormsSimple q ∧ Verif.Simple n
  | .moreThan q n => FormsSimple q ∧ Verif.Simple n
  | .fewerThan q n => FormsSimple q ∧ Verif.Simple n
  | .all _ r q => FormsSimple r ∧ FormsSimple q
  | .count _ q => FormsSimple q
  | .either qs => AltsSimple qs
  | .equals a c => Verif.Simple a ∧ Verif.Simple c
  | .greater a c => Verif.Simple a ∧ Verif.Simple c
  | .less a c => Verif.Simple a ∧ Verif.Simple c
  | .assign _ v => Verif.Simple v
  | .times a c _ => Verif.Simple a ∧ Verif.Simple c
/-- All parts. -/
def FormsSimple : List Form → Prop
  | [] => True
  | f :: fs => f.Simple ∧ FormsSimple fs
/-- All alternatives. -/
def AltsSimple : List (List Form) → Prop
  | [] => True
  | q :: qs => FormsSimple q ∧ AltsSimple qs
end

end Verif

/-!
# Values

Run-time values of the Python code, as far as they can occur in atoms, bindings and rows.
-/

namespace Verif

/-- Run-time values.
Models: the arguments of atoms as used throughout `/repo/richard`, in particular
`richard/entity/Variable.py:4-11` (`var`), `richard/entity/ReifiedVariable.py:4-6` (`rvar`),
`richard/type/SemanticTemplate.py:4-7` (`tmpl`), Python `None`, `str`, `list`, `tuple`.
Simplified: `int` and `float` are both exact rationals (`num`); booleans and user objects are left out. -/
inductive Value where
  | none
  | num (q : Rat)
  | str (s : String)
  | var (name : String)
  | rvar (name : String)
  | list (xs : List Value)
  | tuple (xs : List Value)
  | tmpl (args : List Value) (body : List Value)
  deriving Inhabited, Repr

namespace Value

/-! Equality is structural; Lean cannot derive a decision procedure for a nested type, so it is written out. -/

mutual
/-- Python `==` on the modelled values (dataclass and container equality).
Models the comparisons `!=`/`==` in `richard/core/Solver.py:88,93` and elsewhere. -/
def beq : Value → Value → Bool
  | .none, .none => true
  | .num a, .num b => decide (a = b)
  | .str a, .str b => decide (a = b)
  | .var a, .var b => decide (a = b)
  | .rvar a, .rvar b => decide (a = b)
  | .list a, .list b => beqList a b
  | .tuple a, .tuple b => beqList a b
  | .tmpl a b, .tmpl c d => beqList a c && beqList b d
  | _, _ => false
/-- Element-wise equality of lists of values (Python list and tuple equality). -/
def beqList : List Value → List Value → Bool
  | [], [] => true
  | a :: as, b :: bs => beq a b && beqList as bs
  | _, _ => false
end

mutual
theorem eq_of_beq : ∀ (a b : Value), beq a b = true → a = b
  | .none, b, h => by cases b <;> simp_all [beq]
  | .num _, b, h => by cases b <;> simp_all [beq]
  | .str _, b, h => by cases b <;> simp_all [beq]
  | .var _, b, h => by cases b <;> simp_all [beq]
  | .rvar _, b, h => by cases b <;> simp_all [beq]
  | .list xs, b, h => by
      cases b <;> simp only [beq, Bool.false_eq_true] at h
      rename_i ys; rw [eq_of_beqList xs ys h]
  | .tuple xs, b, h => by
      cases b <;> simp only [beq, Bool.false_eq_true] at h
      rename_i ys; rw [eq_of_beqList xs ys h]
  | .tmpl xs zs, b, h => by
      cases b <;> simp only [beq, Bool.false_eq_true, Bool.and_eq_true] at h
      rename_i ys us
      rw [eq_of_beqList xs ys h.1, eq_of_beqList zs us h.2]
theorem eq_of_beqList : ∀ (a b : List Value), beqList a b = true → a = b
  | [], b, h => by cases b <;> simp_all [beqList]
  | x :: xs, b, h => by
      cases b <;> simp only [beqList, Bool.false_eq_true, Bool.and_eq_true] at h
      rename_i y ys
      rw [eq_of_beq x y h.1, eq_of_beqList xs ys h.2]
end

mutual
theorem beq_refl : ∀ (a : Value), beq a a = true
  | .none => rfl
  | .num _ => by simp [beq]
  | .str _ => by simp [beq]
  | .var _ => by simp [beq]
  | .rvar _ => by simp [beq]
  | .list xs => by simp [beq, beqList_refl xs]
  | .tuple xs => by simp [beq, beqList_refl xs]
  | .tmpl xs ys => by simp [beq, beqList_refl xs, beqList_refl ys]
theorem beqList_refl : ∀ (a : List Value), beqList a a = true
  | [] => rfl
  | x :: xs => by simp [beqList, beq_refl x, beqList_refl xs]
end

instance : DecidableEq Value := fun a b =>
  if h : beq a b = true then isTrue (eq_of_beq a b h)
  else isFalse (fun e => h (e ▸ beq_refl a))

/-- `isinstance(v, Variable)`; models e.g. `richard/core/Solver.py:83`. -/
def isVar : Value → Bool
  | .var _ => true
  | _ => false

end Value

end Verif

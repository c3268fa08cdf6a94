import Verif.Atoms

/-!
# Property C20: substitution in atoms

The specification navigates a value by paths (positions in nested lists and tuples).
-/

namespace Verif

/-- The part of a value found by following positions into nested lists and tuples. -/
def subterm : List Nat → Value → Option Value
  | [], v => some v
  | i :: p, .list xs => match xs[i]? with
    | some x => subterm p x
    | none => none
  | i :: p, .tuple xs => match xs[i]? with
    | some x => subterm p x
    | none => none
  | _ :: _, _ => none

/-- Neither list nor tuple. -/
def isLeaf : Value → Bool
  | .list _ => false
  | .tuple _ => false
  | _ => true

/-- What becomes of a leaf: a bound variable is replaced by its value, everything else stays. -/
def replaced (b : Binding) (v : Value) : Value :=
  match v with
  | .var n => (b.get n).getD (.var n)
  | v => v

theorem bindVars_leaf (b : Binding) (v : Value) (h : isLeaf v = true) : bindVars b v = replaced b v := by
  cases v <;> simp_all [isLeaf, bindVars, replaced]
  cases b.get _ <;> rfl

/-- **C20** (leaves). At each position where the construct has something other than a list or a tuple, the result has the value
of the variable if it is a bound variable, and otherwise the same thing. -/
theorem C20_leaves (b : Binding) (p : List Nat) (v t : Value) (h : subterm p v = some t) (ht : isLeaf t = true) :
    subterm p (bindVars b v) = some (replaced b t) := by
  induction p generalizing v with
  | nil =>
    simp only [subterm, Option.some.injEq] at h ⊢
    subst h
    exact bindVars_leaf b v ht
  | cons i p ih =>
    cases v with
    | list xs =>
      simp only [subterm] at h
      simp only [bindVars, subterm, bindVarsList_eq_map, List.getElem?_map]
      cases hx : xs[i]? with
      | none => rw [hx] at h; simp at h
      | some x => rw [hx] at h; exact ih x h
    | tuple xs =>
      simp only [subterm] at h
      simp only [bindVars, subterm, bindVarsList_eq_map, List.getElem?_map]
      cases hx : xs[i]? with
      | none => rw [hx] at h; simp at h
      | some x => rw [hx] at h; exact ih x h
    | _ => simp [subterm] at h

/-- **C20** (structure). Lists stay lists and tuples stay tuples, of the same length, at each position. -/
theorem C20_structure (b : Binding) (p : List Nat) (v : Value) (xs : List Value) :
    (subterm p v = some (.list xs) → ∃ ys, subterm p (bindVars b v) = some (.list ys) ∧ ys.length = xs.length) ∧
    (subterm p v = some (.tuple xs) → ∃ ys, subterm p (bindVars b v) = some (.tuple ys) ∧ ys.length = xs.length) := by
  induction p generalizing v with
  | nil =>
    constructor <;>
    · intro h
      simp only [subterm, Option.some.injEq] at h ⊢
      subst h
      exact ⟨bindVarsList b xs, rfl, by simp [bindVarsList_eq_map]⟩
  | cons i p ih =>
    cases v with
    | list zs =>
      simp only [bindVars, subterm, bindVarsList_eq_map, List.getElem?_map]
      cases hx : zs[i]? with
      | none => simp
      | some x => exact ih x
    | tuple zs =>
      simp only [bindVars, subterm, bindVarsList_eq_map, List.getElem?_map]
      cases hx : zs[i]? with
      | none => simp
      | some x => exact ih x
    | _ => simp [subterm]

mutual
theorem mem_varsOf_iff : ∀ (v : Value) (n : String), n ∈ varsOf v ↔ ∃ p, subterm p v = some (.var n)
  | .var m, n => by
      simp only [varsOf, List.mem_singleton]
      constructor
      · rintro rfl; exact ⟨[], rfl⟩
      · rintro ⟨p, hp⟩
        cases p with
        | nil => simpa [subterm, eq_comm] using hp
        | cons i p => simp [subterm] at hp
  | .list xs, n => by
      rw [varsOf, mem_varsOfList_iff xs n]
      constructor
      · rintro ⟨i, p, x, hx, hp⟩; exact ⟨i :: p, by simp [subterm, hx, hp]⟩
      · rintro ⟨p, hp⟩
        cases p with
        | nil => simp [subterm] at hp
        | cons i p =>
          simp only [subterm] at hp
          cases hx : xs[i]? with
          | none => rw [hx] at hp; simp at hp
          | some x => rw [hx] at hp; exact ⟨i, p, x, hx, hp⟩
  | .tuple xs, n => by
      rw [varsOf, mem_varsOfList_iff xs n]
      constructor
      · rintro ⟨i, p, x, hx, hp⟩; exact ⟨i :: p, by simp [subterm, hx, hp]⟩
      · rintro ⟨p, hp⟩
        cases p with
        | nil => simp [subterm] at hp
        | cons i p =>
          simp only [subterm] at hp
          cases hx : xs[i]? with
          | none => rw [hx] at hp; simp at hp
          | some x => rw [hx] at hp; exact ⟨i, p, x, hx, hp⟩
  | .none, n => by
      simp only [varsOf, List.not_mem_nil, false_iff]
      rintro ⟨p, hp⟩; cases p <;> simp [subterm] at hp
  | .num _, n => by
      simp only [varsOf, List.not_mem_nil, false_iff]
      rintro ⟨p, hp⟩; cases p <;> simp [subterm] at hp
  | .str _, n => by
      simp only [varsOf, List.not_mem_nil, false_iff]
      rintro ⟨p, hp⟩; cases p <;> simp [subterm] at hp
  | .rvar _, n => by
      simp only [varsOf, List.not_mem_nil, false_iff]
      rintro ⟨p, hp⟩; cases p <;> simp [subterm] at hp
  | .tmpl _ _, n => by
      simp only [varsOf, List.not_mem_nil, false_iff]
      rintro ⟨p, hp⟩; cases p <;> simp [subterm] at hp
theorem mem_varsOfList_iff : ∀ (xs : List Value) (n : String),
    n ∈ varsOfList xs ↔ ∃ (i : Nat) (p : List Nat) (x : Value), xs[i]? = some x ∧ subterm p x = some (.var n)
  | [], n => by simp [varsOfList]
  | x :: xs, n => by
      simp only [varsOfList, List.mem_append, mem_varsOf_iff x n, mem_varsOfList_iff xs n]
      constructor
      · rintro (⟨p, hp⟩ | ⟨i, p, y, hy, hp⟩)
        · exact ⟨0, p, x, rfl, hp⟩
        · exact ⟨i + 1, p, y, by simpa using hy, hp⟩
      · rintro ⟨i, p, y, hy, hp⟩
        cases i with
        | zero =>
          simp only [List.getElem?_cons_zero, Option.some.injEq] at hy
          subst hy; exact .inl ⟨p, hp⟩
        | succ i => exact .inr ⟨i, p, y, by simpa using hy, hp⟩
end

/-- **C20** (`get_atom_variables`). Exactly the variables that occur at some position. -/
theorem C20_variables (v : Value) (n : String) : n ∈ varsOf v ↔ ∃ p, subterm p v = some (.var n) := mem_varsOf_iff v n

mutual
theorem mem_varsOf_bindVars (b : Binding) : ∀ (v : Value) (n : String), n ∈ varsOf (bindVars b v) ↔
    (n ∈ varsOf v ∧ b.get n = none) ∨ ∃ m ∈ varsOf v, ∃ u, b.get m = some u ∧ n ∈ varsOf u
  | .var m, n => by
      simp only [bindVars, varsOf, List.mem_singleton, exists_eq_left]
      cases h : b.get m with
      | none =>
        simp only [varsOf, List.mem_singleton, reduceCtorEq, false_and, exists_false, or_false]
        constructor
        · rintro rfl; exact ⟨rfl, h⟩
        · exact fun h => h.1
      | some u =>
        simp only [Option.some.injEq, exists_eq_left']
        constructor
        · exact .inr
        · rintro (⟨rfl, h'⟩ | h')
          · rw [h] at h'; simp at h'
          · exact h'
  | .list xs, n => by rw [bindVars, varsOf, varsOf]; exact mem_varsOfList_bindVars b xs n
  | .tuple xs, n => by rw [bindVars, varsOf, varsOf]; exact mem_varsOfList_bindVars b xs n
  | .none, n => by simp [bindVars, varsOf]
  | .num _, n => by simp [bindVars, varsOf]
  | .str _, n => by simp [bindVars, varsOf]
  | .rvar _, n => by simp [bindVars, varsOf]
  | .tmpl _ _, n => by simp [bindVars, varsOf]
theorem mem_varsOfList_bindVars (b : Binding) : ∀ (xs : List Value) (n : String), n ∈ varsOfList (bindVarsList b xs) ↔
    (n ∈ varsOfList xs ∧ b.get n = none) ∨ ∃ m ∈ varsOfList xs, ∃ u, b.get m = some u ∧ n ∈ varsOf u
  | [], n => by simp [bindVarsList, varsOfList]
  | x :: xs, n => by
      simp only [bindVarsList, varsOfList, List.mem_append, mem_varsOf_bindVars b x n, mem_varsOfList_bindVars b xs n]
      constructor
      · rintro ((h | ⟨m, hm, h⟩) | (h | ⟨m, hm, h⟩))
        · exact .inl ⟨.inl h.1, h.2⟩
        · exact .inr ⟨m, .inl hm, h⟩
        · exact .inl ⟨.inr h.1, h.2⟩
        · exact .inr ⟨m, .inr hm, h⟩
      · rintro (⟨h | h, h'⟩ | ⟨m, hm | hm, h⟩)
        · exact .inl (.inl ⟨h, h'⟩)
        · exact .inr (.inl ⟨h, h'⟩)
        · exact .inl (.inr ⟨m, hm, h⟩)
        · exact .inr (.inr ⟨m, hm, h⟩)
end

/-- **C20** (remaining variables). After the substitution the variables are the unbound ones, plus those inside inserted values. -/
theorem C20_remaining_variables (b : Binding) (v : Value) (n : String) : n ∈ varsOf (bindVars b v) ↔
    (n ∈ varsOf v ∧ b.get n = none) ∨ ∃ m ∈ varsOf v, ∃ u, b.get m = some u ∧ n ∈ varsOf u :=
  mem_varsOf_bindVars b v n

mutual
theorem bindVars_of_unbound (b : Binding) : ∀ (v : Value), (∀ n ∈ varsOf v, b.get n = none) → bindVars b v = v
  | .var m, h => by simp [bindVars, h m (by simp [varsOf])]
  | .list xs, h => by rw [bindVars, bindVarsList_of_unbound b xs (by simpa [varsOf] using h)]
  | .tuple xs, h => by rw [bindVars, bindVarsList_of_unbound b xs (by simpa [varsOf] using h)]
  | .none, _ => rfl
  | .num _, _ => rfl
  | .str _, _ => rfl
  | .rvar _, _ => rfl
  | .tmpl _ _, _ => rfl
theorem bindVarsList_of_unbound (b : Binding) : ∀ (xs : List Value), (∀ n ∈ varsOfList xs, b.get n = none) →
    bindVarsList b xs = xs
  | [], _ => rfl
  | x :: xs, h => by
      rw [bindVarsList, bindVars_of_unbound b x (fun n hn => h n (by simp [varsOfList, hn])),
        bindVarsList_of_unbound b xs (fun n hn => h n (by simp [varsOfList, hn]))]
end

/-- **C20** (nothing to do). A construct without bound variables is returned as it is. -/
theorem C20_unbound (b : Binding) (v : Value) (h : ∀ p n, subterm p v = some (.var n) → b.get n = none) :
    bindVars b v = v := by
  refine bindVars_of_unbound b v fun n hn => ?_
  obtain ⟨p, hp⟩ := (C20_variables v n).1 hn
  exact h p n hp

/-- **C20** (idempotence). If the inserted values contain no bound variables (in particular if they contain no variables),
substituting twice is the same as substituting once. -/
theorem C20_idempotent (b : Binding) (v : Value)
    (h : ∀ m u, b.get m = some u → ∀ n ∈ varsOf u, b.get n = none) : bindVars b (bindVars b v) = bindVars b v := by
  refine bindVars_of_unbound b _ fun n hn => ?_
  rcases (mem_varsOf_bindVars b v n).1 hn with h1 | ⟨m, _, u, h1, h2⟩
  · exact h1.2
  · exact h m u h1 n h2

/-- A nested atom with bound and unbound variables. -/
def Ex.nested : Value := .list [.tuple [.str "p", .var "A", .list [.tuple [.str "q", .var "B", .var "C"]]], .num 3]

example : subterm [0, 2, 0, 1] Ex.nested = some (.var "B") ∧
    subterm [0, 2, 0, 1] (bindVars [("B", .str "b"), ("A", .list [.var "Z"])] Ex.nested) = some (.str "b") ∧
    varsOf (bindVars [("B", .str "b"), ("A", .list [.var "Z"])] Ex.nested) = ["Z", "C"] ∧
    (∀ n ∈ varsOf (.list [.var "Z"]), Dict.get [("B", Value.str "b"), ("A", .list [.var "Z"])] n = none) := by
  decide +kernel

end Verif

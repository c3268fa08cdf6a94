import Verif.Optimizer

/-!
# C45: name resolution is moved to the front
-/

namespace Verif

/-! ## Specification -/

/-- An atom that resolves a name. -/
def IsResolver (v : Value) : Prop := ∃ args, v = .tuple (.str "resolve_name" :: args)

/-- The value is an element of the atom list, or of an atom list inside it: one that is itself an element, or an argument of an atom
that does not resolve a name. -/
inductive InAtomList (v : Value) : List Value → Prop
  | here {xs} : v ∈ xs → InAtomList v xs
  | list {xs ys} : .list ys ∈ xs → InAtomList v ys → InAtomList v xs
  | arg {xs ts ys} : .tuple ts ∈ xs → ¬ IsResolver (.tuple ts) → .list ys ∈ ts → InAtomList v ys → InAtomList v xs

/-- Decides whether the terms are those of an atom that resolves a name. -/
def resolverTerms : List Value → Bool
  | p :: _ => decide (p = .str "resolve_name")
  | [] => false

mutual
/-- The name resolvers, in reading order. -/
def resolversOf : List Value → List Value
  | [] => []
  | a :: rest => resolversIn a ++ resolversOf rest
/-- The name resolvers of one element. -/
def resolversIn : Value → List Value
  | .list xs => resolversOf xs
  | .tuple ts => if resolverTerms ts then [.tuple ts] else resolversBelow ts
  | _ => []
/-- The name resolvers in the lists among the terms. -/
def resolversBelow : List Value → List Value
  | [] => []
  | .list xs :: rest => resolversOf xs ++ resolversBelow rest
  | _ :: rest => resolversBelow rest
end

mutual
/-- The atom list with all name resolvers crossed out, everything else left in its place. -/
def crossOut : List Value → List Value
  | [] => []
  | a :: rest => crossOutIn a ++ crossOut rest
/-- The same for an element: nothing, or one element. -/
def crossOutIn : Value → List Value
  | .list xs => [.list (crossOut xs)]
  | .tuple ts => if resolverTerms ts then [] else [.tuple (crossOutBelow ts)]
  | v => [v]
/-- The same for terms. -/
def crossOutBelow : List Value → List Value
  | [] => []
  | .list xs :: rest => .list (crossOut xs) :: crossOutBelow rest
  | t :: rest => t :: crossOutBelow rest
end

/-! ## Proofs -/

theorem extractTerms_eq_other (t : Value) (rest rs kept : List Value) (h : extractTerms (t :: rest) = .ok (rs, kept))
    (h1 : extractTerms (t :: rest) = match extractTerms rest with
      | .error e => .error e
      | .ok (rs', kept') => .ok (rs', t :: kept'))
    (h2 : resolversBelow (t :: rest) = resolversBelow rest) (h3 : crossOutBelow (t :: rest) = t :: crossOutBelow rest)
    (ih : ∀ rs kept, extractTerms rest = .ok (rs, kept) → rs = resolversBelow rest ∧ kept = crossOutBelow rest) :
    rs = resolversBelow (t :: rest) ∧ kept = crossOutBelow (t :: rest) := by
  rw [h1] at h
  cases h4 : extractTerms rest with
  | error e => simp [h4] at h
  | ok r2 =>
    obtain ⟨rs2, k2⟩ := r2
    simp only [h4, Except.ok.injEq, Prod.mk.injEq] at h
    have e2 := ih rs2 k2 h4
    rw [h2, h3, ← h.1, ← h.2, e2.1, e2.2]
    exact ⟨rfl, rfl⟩

mutual
theorem extractList_eq : ∀ (xs rs kept : List Value), extractList xs = .ok (rs, kept) → rs = resolversOf xs ∧ kept = crossOut xs
  | [], rs, kept, h => by
    simp only [extractList, Except.ok.injEq, Prod.mk.injEq] at h
    exact ⟨h.1.symm, h.2.symm⟩
  | a :: rest, rs, kept, h => by
    simp only [extractList] at h
    cases h1 : extractOne a with
    | error e => simp [h1] at h
    | ok r1 =>
      obtain ⟨rs1, k1⟩ := r1
      simp only [h1] at h
      cases h2 : extractList rest with
      | error e => simp [h2] at h
      | ok r2 =>
        obtain ⟨rs2, k2⟩ := r2
        simp only [h2, Except.ok.injEq, Prod.mk.injEq] at h
        have e1 := extractOne_eq a rs1 k1 h1
        have e2 := extractList_eq rest rs2 k2 h2
        rw [resolversOf, crossOut, ← h.1, ← h.2, e1.1, e1.2, e2.1, e2.2]
        exact ⟨rfl, rfl⟩
theorem extractOne_eq : ∀ (v : Value) (rs kept : List Value), extractOne v = .ok (rs, kept) → rs = resolversIn v ∧ kept = crossOutIn v
  | .list xs, rs, kept, h => by
    simp only [extractOne] at h
    cases h1 : extractList xs with
    | error e => simp [h1] at h
    | ok r1 =>
      obtain ⟨rs1, k1⟩ := r1
      simp only [h1, Except.ok.injEq, Prod.mk.injEq] at h
      have e1 := extractList_eq xs rs1 k1 h1
      rw [resolversIn, crossOutIn, ← h.1, ← h.2, e1.1, e1.2]
      exact ⟨rfl, rfl⟩
  | .tuple [], rs, kept, h => by simp [extractOne] at h
  | .tuple (p :: ts), rs, kept, h => by
    simp only [extractOne] at h
    simp only [resolversIn, crossOutIn, resolverTerms, decide_eq_true_eq]
    split at h
    · rename_i hp
      simp only [Except.ok.injEq, Prod.mk.injEq] at h
      rw [if_pos hp, if_pos hp, ← h.1, ← h.2]
      exact ⟨rfl, rfl⟩
    · rename_i hp
      rw [if_neg hp, if_neg hp]
      cases h1 : extractTerms (p :: ts) with
      | error e => simp [h1] at h
      | ok r1 =>
        obtain ⟨rs1, k1⟩ := r1
        simp only [h1, Except.ok.injEq, Prod.mk.injEq] at h
        have e1 := extractTerms_eq (p :: ts) rs1 k1 h1
        rw [← h.1, ← h.2, e1.1, e1.2]
        exact ⟨rfl, rfl⟩
  | .none, rs, kept, h => by simp only [extractOne, Except.ok.injEq, Prod.mk.injEq] at h; exact ⟨h.1.symm, h.2.symm⟩
  | .num _, rs, kept, h => by simp only [extractOne, Except.ok.injEq, Prod.mk.injEq] at h; exact ⟨h.1.symm, h.2.symm⟩
  | .str _, rs, kept, h => by simp only [extractOne, Except.ok.injEq, Prod.mk.injEq] at h; exact ⟨h.1.symm, h.2.symm⟩
  | .var _, rs, kept, h => by simp only [extractOne, Except.ok.injEq, Prod.mk.injEq] at h; exact ⟨h.1.symm, h.2.symm⟩
  | .rvar _, rs, kept, h => by simp only [extractOne, Except.ok.injEq, Prod.mk.injEq] at h; exact ⟨h.1.symm, h.2.symm⟩
  | .tmpl _ _, rs, kept, h => by simp only [extractOne, Except.ok.injEq, Prod.mk.injEq] at h; exact ⟨h.1.symm, h.2.symm⟩
theorem extractTerms_eq : ∀ (ts rs kept : List Value), extractTerms ts = .ok (rs, kept) →
    rs = resolversBelow ts ∧ kept = crossOutBelow ts
  | [], rs, kept, h => by
    simp only [extractTerms, Except.ok.injEq, Prod.mk.injEq] at h
    exact ⟨h.1.symm, h.2.symm⟩
  | .list xs :: rest, rs, kept, h => by
    simp only [extractTerms] at h
    cases h1 : extractList xs with
    | error e => simp [h1] at h
    | ok r1 =>
      obtain ⟨rs1, k1⟩ := r1
      simp only [h1] at h
      cases h2 : extractTerms rest with
      | error e => simp [h2] at h
      | ok r2 =>
        obtain ⟨rs2, k2⟩ := r2
        simp only [h2, Except.ok.injEq, Prod.mk.injEq] at h
        have e1 := extractList_eq xs rs1 k1 h1
        have e2 := extractTerms_eq rest rs2 k2 h2
        rw [resolversBelow, crossOutBelow, ← h.1, ← h.2, e1.1, e1.2, e2.1, e2.2]
        exact ⟨rfl, rfl⟩
  | .none :: rest, rs, kept, h => extractTerms_eq_other .none rest rs kept h rfl rfl rfl (extractTerms_eq rest)
  | .num a :: rest, rs, kept, h => extractTerms_eq_other (.num a) rest rs kept h rfl rfl rfl (extractTerms_eq rest)
  | .str a :: rest, rs, kept, h => extractTerms_eq_other (.str a) rest rs kept h rfl rfl rfl (extractTerms_eq rest)
  | .var a :: rest, rs, kept, h => extractTerms_eq_other (.var a) rest rs kept h rfl rfl rfl (extractTerms_eq rest)
  | .rvar a :: rest, rs, kept, h => extractTerms_eq_other (.rvar a) rest rs kept h rfl rfl rfl (extractTerms_eq rest)
  | .tuple a :: rest, rs, kept, h => extractTerms_eq_other (.tuple a) rest rs kept h rfl rfl rfl (extractTerms_eq rest)
  | .tmpl a b :: rest, rs, kept, h => extractTerms_eq_other (.tmpl a b) rest rs kept h rfl rfl rfl (extractTerms_eq rest)
end

theorem inAtomList_nil {v : Value} : ¬ InAtomList v [] := by
  intro h
  cases h with
  | here h => simp at h
  | list h => simp at h
  | arg h => simp at h

theorem inAtomList_append {v : Value} {xs ys : List Value} : InAtomList v (xs ++ ys) ↔ InAtomList v xs ∨ InAtomList v ys := by
  constructor
  · intro h
    cases h with
    | here h => exact (List.mem_append.1 h).imp .here .here
    | list h h' => exact (List.mem_append.1 h).imp (.list · h') (.list · h')
    | arg h h1 h2 h3 => exact (List.mem_append.1 h).imp (.arg · h1 h2 h3) (.arg · h1 h2 h3)
  · rintro (h | h)
    · cases h with
      | here h => exact .here (List.mem_append_left _ h)
      | list h h' => exact .list (List.mem_append_left _ h) h'
      | arg h h1 h2 h3 => exact .arg (List.mem_append_left _ h) h1 h2 h3
    · cases h with
      | here h => exact .here (List.mem_append_right _ h)
      | list h h' => exact .list (List.mem_append_right _ h) h'
      | arg h h1 h2 h3 => exact .arg (List.mem_append_right _ h) h1 h2 h3

theorem inAtomList_cons {v a : Value} {xs : List Value} : InAtomList v (a :: xs) ↔ InAtomList v [a] ∨ InAtomList v xs :=
  inAtomList_append (xs := [a])

theorem inAtomList_list {v : Value} {ys : List Value} : InAtomList v [.list ys] ↔ v = .list ys ∨ InAtomList v ys := by
  constructor
  · intro h
    cases h with
    | here h => exact .inl (List.mem_singleton.1 h)
    | list h h' => simp only [List.mem_singleton, Value.list.injEq] at h; subst h; exact .inr h'
    | arg h => simp at h
  · rintro (rfl | h)
    · exact .here (by simp)
    · exact .list (by simp) h

theorem inAtomList_tuple {v : Value} {ts : List Value} : InAtomList v [.tuple ts] ↔
    v = .tuple ts ∨ (¬ IsResolver (.tuple ts) ∧ ∃ ys, .list ys ∈ ts ∧ InAtomList v ys) := by
  constructor
  · intro h
    cases h with
    | here h => exact .inl (List.mem_singleton.1 h)
    | list h h' => simp at h
    | arg h h1 h2 h3 => simp only [List.mem_singleton, Value.tuple.injEq] at h; subst h; exact .inr ⟨h1, _, h2, h3⟩
  · rintro (rfl | ⟨h1, ys, h2, h3⟩)
    · exact .here (by simp)
    · exact .arg (by simp) h1 h2 h3

theorem inAtomList_other {v a : Value} (h1 : ∀ ys, a ≠ .list ys) (h2 : ∀ ts, a ≠ .tuple ts) : InAtomList v [a] ↔ v = a := by
  constructor
  · intro h
    cases h with
    | here h => exact List.mem_singleton.1 h
    | list h _ => exact absurd (List.mem_singleton.1 h).symm (h1 _)
    | arg h _ _ _ => exact absurd (List.mem_singleton.1 h).symm (h2 _)
  · rintro rfl; exact .here (by simp)

theorem isResolver_tuple {ts : List Value} : IsResolver (.tuple ts) ↔ resolverTerms ts = true := by
  cases ts with
  | nil => simp [IsResolver, resolverTerms]
  | cons p ts => simp [IsResolver, resolverTerms]

mutual
theorem resolversOf_iff : ∀ (xs : List Value) (v : Value), v ∈ resolversOf xs ↔ IsResolver v ∧ InAtomList v xs
  | [], v => by simp [resolversOf, inAtomList_nil]
  | a :: rest, v => by
    rw [resolversOf, List.mem_append, resolversIn_iff a v, resolversOf_iff rest v, inAtomList_cons (xs := rest)]
    constructor
    · rintro (⟨h1, h2⟩ | ⟨h1, h2⟩)
      · exact ⟨h1, .inl h2⟩
      · exact ⟨h1, .inr h2⟩
    · rintro ⟨h1, h2 | h2⟩
      · exact .inl ⟨h1, h2⟩
      · exact .inr ⟨h1, h2⟩
theorem resolversIn_iff : ∀ (a v : Value), v ∈ resolversIn a ↔ IsResolver v ∧ InAtomList v [a]
  | .list xs, v => by
    rw [resolversIn, resolversOf_iff xs v, inAtomList_list]
    constructor
    · rintro ⟨h1, h2⟩; exact ⟨h1, .inr h2⟩
    · rintro ⟨h1, rfl | h2⟩
      · obtain ⟨_, h⟩ := h1; simp at h
      · exact ⟨h1, h2⟩
  | .tuple ts, v => by
    rw [resolversIn, inAtomList_tuple]
    cases hr : resolverTerms ts with
    | true =>
      simp only [if_true, List.mem_singleton]
      constructor
      · rintro rfl; exact ⟨isResolver_tuple.2 hr, .inl rfl⟩
      · rintro ⟨_, rfl | ⟨h, _⟩⟩
        · rfl
        · exact absurd (isResolver_tuple.2 hr) h
    | false =>
      have hn : ¬ IsResolver (.tuple ts) := fun h => by rw [isResolver_tuple.1 h] at hr; simp at hr
      simp only [Bool.false_eq_true, if_false]
      rw [resolversBelow_iff ts v]
      constructor
      · rintro ⟨h1, h2⟩; exact ⟨h1, .inr ⟨hn, h2⟩⟩
      · rintro ⟨h1, rfl | ⟨_, h2⟩⟩
        · exact absurd h1 hn
        · exact ⟨h1, h2⟩
  | .none, v => by rw [inAtomList_other (by simp) (by simp)]; simp only [resolversIn, List.not_mem_nil, false_iff, not_and]; rintro ⟨_, rfl⟩; simp
  | .num _, v => by rw [inAtomList_other (by simp) (by simp)]; simp only [resolversIn, List.not_mem_nil, false_iff, not_and]; rintro ⟨_, rfl⟩; simp
  | .str _, v => by rw [inAtomList_other (by simp) (by simp)]; simp only [resolversIn, List.not_mem_nil, false_iff, not_and]; rintro ⟨_, rfl⟩; simp
  | .var _, v => by rw [inAtomList_other (by simp) (by simp)]; simp only [resolversIn, List.not_mem_nil, false_iff, not_and]; rintro ⟨_, rfl⟩; simp
  | .rvar _, v => by rw [inAtomList_other (by simp) (by simp)]; simp only [resolversIn, List.not_mem_nil, false_iff, not_and]; rintro ⟨_, rfl⟩; simp
  | .tmpl _ _, v => by rw [inAtomList_other (by simp) (by simp)]; simp only [resolversIn, List.not_mem_nil, false_iff, not_and]; rintro ⟨_, rfl⟩; simp
theorem resolversBelow_iff : ∀ (ts : List Value) (v : Value), v ∈ resolversBelow ts ↔ IsResolver v ∧ ∃ ys, .list ys ∈ ts ∧ InAtomList v ys
  | [], v => by simp [resolversBelow]
  | .list xs :: rest, v => by
    rw [resolversBelow, List.mem_append, resolversOf_iff xs v, resolversBelow_iff rest v]
    constructor
    · rintro (⟨h1, h2⟩ | ⟨h1, ys, h2, h3⟩)
      · exact ⟨h1, xs, by simp, h2⟩
      · exact ⟨h1, ys, List.mem_cons_of_mem _ h2, h3⟩
    · rintro ⟨h1, ys, h2, h3⟩
      simp only [List.mem_cons, Value.list.injEq] at h2
      rcases h2 with rfl | h2
      · exact .inl ⟨h1, h3⟩
      · exact .inr ⟨h1, ys, h2, h3⟩
  | .none :: rest, v => by rw [resolversBelow, resolversBelow_iff rest v] <;> simp
  | .num _ :: rest, v => by rw [resolversBelow, resolversBelow_iff rest v] <;> simp
  | .str _ :: rest, v => by rw [resolversBelow, resolversBelow_iff rest v] <;> simp
  | .var _ :: rest, v => by rw [resolversBelow, resolversBelow_iff rest v] <;> simp
  | .rvar _ :: rest, v => by rw [resolversBelow, resolversBelow_iff rest v] <;> simp
  | .tuple _ :: rest, v => by rw [resolversBelow, resolversBelow_iff rest v] <;> simp
  | .tmpl _ _ :: rest, v => by rw [resolversBelow, resolversBelow_iff rest v] <;> simp
end

mutual
theorem crossOut_in : ∀ (xs : List Value) (v : Value), InAtomList v (crossOut xs) → ¬ IsResolver v
  | [], v, h => absurd h (by rw [crossOut]; exact inAtomList_nil)
  | a :: rest, v, h => by
    rw [crossOut, inAtomList_append] at h
    rcases h with h | h
    · exact crossOutIn_in a v h
    · exact crossOut_in rest v h
theorem crossOutIn_in : ∀ (a v : Value), InAtomList v (crossOutIn a) → ¬ IsResolver v
  | .list xs, v, h => by
    rw [crossOutIn, inAtomList_list] at h
    rcases h with rfl | h
    · rintro ⟨_, h⟩; simp at h
    · exact crossOut_in xs v h
  | .tuple ts, v, h => by
    rw [crossOutIn] at h
    cases hr : resolverTerms ts with
    | true => rw [hr] at h; exact absurd h inAtomList_nil
    | false =>
      rw [hr] at h
      simp only [Bool.false_eq_true, if_false, inAtomList_tuple] at h
      rcases h with rfl | ⟨_, ys, h1, h2⟩
      · rw [isResolver_tuple, crossOutBelow_head, hr]; simp
      · exact crossOutBelow_in ts v ys h1 h2
  | .none, v, h => by
    rw [crossOutIn, inAtomList_other (by simp) (by simp)] at h
    · subst h; rintro ⟨_, h⟩; simp at h
    · simp
    · simp
  | .num _, v, h => by
    rw [crossOutIn, inAtomList_other (by simp) (by simp)] at h
    · subst h; rintro ⟨_, h⟩; simp at h
    · simp
    · simp
  | .str _, v, h => by
    rw [crossOutIn, inAtomList_other (by simp) (by simp)] at h
    · subst h; rintro ⟨_, h⟩; simp at h
    · simp
    · simp
  | .var _, v, h => by
    rw [crossOutIn, inAtomList_other (by simp) (by simp)] at h
    · subst h; rintro ⟨_, h⟩; simp at h
    · simp
    · simp
  | .rvar _, v, h => by
    rw [crossOutIn, inAtomList_other (by simp) (by simp)] at h
    · subst h; rintro ⟨_, h⟩; simp at h
    · simp
    · simp
  | .tmpl _ _, v, h => by
    rw [crossOutIn, inAtomList_other (by simp) (by simp)] at h
    · subst h; rintro ⟨_, h⟩; simp at h
    · simp
    · simp
theorem crossOutBelow_in : ∀ (ts : List Value) (v : Value) (ys : List Value), .list ys ∈ crossOutBelow ts → InAtomList v ys → ¬ IsResolver v
  | [], v, ys, h, _ => by simp [crossOutBelow] at h
  | .list xs :: rest, v, ys, h, h' => by
    simp only [crossOutBelow, List.mem_cons, Value.list.injEq] at h
    rcases h with rfl | h
    · exact crossOut_in xs v h'
    · exact crossOutBelow_in rest v ys h h'
  | .none :: rest, v, ys, h, h' => by
    simp only [crossOutBelow, List.mem_cons, reduceCtorEq, false_or] at h
    exact crossOutBelow_in rest v ys h h'
  | .num _ :: rest, v, ys, h, h' => by
    simp only [crossOutBelow, List.mem_cons, reduceCtorEq, false_or] at h
    exact crossOutBelow_in rest v ys h h'
  | .str _ :: rest, v, ys, h, h' => by
    simp only [crossOutBelow, List.mem_cons, reduceCtorEq, false_or] at h
    exact crossOutBelow_in rest v ys h h'
  | .var _ :: rest, v, ys, h, h' => by
    simp only [crossOutBelow, List.mem_cons, reduceCtorEq, false_or] at h
    exact crossOutBelow_in rest v ys h h'
  | .rvar _ :: rest, v, ys, h, h' => by
    simp only [crossOutBelow, List.mem_cons, reduceCtorEq, false_or] at h
    exact crossOutBelow_in rest v ys h h'
  | .tuple _ :: rest, v, ys, h, h' => by
    simp only [crossOutBelow, List.mem_cons, reduceCtorEq, false_or] at h
    exact crossOutBelow_in rest v ys h h'
  | .tmpl _ _ :: rest, v, ys, h, h' => by
    simp only [crossOutBelow, List.mem_cons, reduceCtorEq, false_or] at h
    exact crossOutBelow_in rest v ys h h'
theorem crossOutBelow_head : ∀ ts, resolverTerms (crossOutBelow ts) = resolverTerms ts
  | [] => rfl
  | t :: rest => by cases t <;> simp [crossOutBelow, resolverTerms]
end

mutual
theorem crossOut_crossOut : ∀ xs, crossOut (crossOut xs) = crossOut xs
  | [] => rfl
  | a :: rest => by rw [crossOut, crossOut_append, crossOut_crossOut rest, crossOut_crossOutIn a]
theorem crossOut_crossOutIn : ∀ a, crossOut (crossOutIn a) = crossOutIn a
  | .list xs => by simp only [crossOutIn, crossOut, crossOut_crossOut xs, List.append_nil]
  | .tuple ts => by
    cases hr : resolverTerms ts with
    | true => simp [crossOutIn, hr, crossOut]
    | false =>
      simp [crossOutIn, hr, crossOut, crossOutBelow_head, crossOutBelow_crossOutBelow ts]
  | .none => by simp [crossOutIn, crossOut]
  | .num _ => by simp [crossOutIn, crossOut]
  | .str _ => by simp [crossOutIn, crossOut]
  | .var _ => by simp [crossOutIn, crossOut]
  | .rvar _ => by simp [crossOutIn, crossOut]
  | .tmpl _ _ => by simp [crossOutIn, crossOut]
theorem crossOutBelow_crossOutBelow : ∀ ts, crossOutBelow (crossOutBelow ts) = crossOutBelow ts
  | [] => rfl
  | .list xs :: rest => by simp only [crossOutBelow, crossOut_crossOut xs, crossOutBelow_crossOutBelow rest]
  | .none :: rest => by simp only [crossOutBelow, crossOutBelow_crossOutBelow rest]
  | .num _ :: rest => by simp only [crossOutBelow, crossOutBelow_crossOutBelow rest]
  | .str _ :: rest => by simp only [crossOutBelow, crossOutBelow_crossOutBelow rest]
  | .var _ :: rest => by simp only [crossOutBelow, crossOutBelow_crossOutBelow rest]
  | .rvar _ :: rest => by simp only [crossOutBelow, crossOutBelow_crossOutBelow rest]
  | .tuple _ :: rest => by simp only [crossOutBelow, crossOutBelow_crossOutBelow rest]
  | .tmpl _ _ :: rest => by simp only [crossOutBelow, crossOutBelow_crossOutBelow rest]
theorem crossOut_append : ∀ xs ys, crossOut (xs ++ ys) = crossOut xs ++ crossOut ys
  | [], ys => rfl
  | a :: rest, ys => by simp only [List.cons_append, crossOut, crossOut_append rest ys, List.append_assoc]
end

theorem resolversOf_append (xs ys : List Value) : resolversOf (xs ++ ys) = resolversOf xs ++ resolversOf ys := by
  induction xs with
  | nil => rfl
  | cons a rest ih => simp only [List.cons_append, resolversOf, ih, List.append_assoc]

theorem resolversOf_resolvers {rs : List Value} (h : ∀ r ∈ rs, IsResolver r) : resolversOf rs = rs ∧ crossOut rs = [] := by
  induction rs with
  | nil => exact ⟨rfl, rfl⟩
  | cons r rs ih =>
    obtain ⟨h1, h2⟩ := ih (fun x hx => h x (List.mem_cons_of_mem _ hx))
    obtain ⟨args, rfl⟩ := h r (by simp)
    simp [resolversOf, crossOut, resolversIn, crossOutIn, resolverTerms, h1, h2]

theorem resolversOf_crossOut (xs : List Value) : resolversOf (crossOut xs) = [] := by
  cases h : resolversOf (crossOut xs) with
  | nil => rfl
  | cons r rs =>
    have := (resolversOf_iff (crossOut xs) r).1 (by rw [h]; simp)
    exact absurd this.1 (crossOut_in xs r this.2)

/-! When it raises -/

mutual
theorem extractList_ok : ∀ (xs : List Value), (∃ r, extractList xs = .ok r) ↔ ¬ InAtomList (.tuple []) xs
  | [] => by simp [extractList, inAtomList_nil]
  | a :: rest => by
    rw [inAtomList_cons (xs := rest), not_or, ← extractOne_ok a, ← extractList_ok rest]
    simp only [extractList]
    cases h1 : extractOne a with
    | error e => simp
    | ok r1 =>
      cases h2 : extractList rest with
      | error e => simp
      | ok r2 => simp
theorem extractOne_ok : ∀ (a : Value), (∃ r, extractOne a = .ok r) ↔ ¬ InAtomList (.tuple []) [a]
  | .list xs => by
    rw [inAtomList_list, not_or, ← extractList_ok xs]
    simp only [extractOne]
    cases h1 : extractList xs with
    | error e => simp
    | ok r1 => simp
  | .tuple [] => by simp [extractOne, inAtomList_tuple]
  | .tuple (p :: ts) => by
    rw [inAtomList_tuple, not_or]
    simp only [extractOne]
    split
    · rename_i hp
      simp only [hp, IsResolver]
      simp
    · rename_i hp
      have hn : ¬ IsResolver (.tuple (p :: ts)) := by rw [isResolver_tuple]; simp [resolverTerms, hp]
      simp only [hn, not_false_eq_true, true_and]
      rw [← extractTerms_ok (p :: ts)]
      cases h1 : extractTerms (p :: ts) with
      | error e => simp
      | ok r1 => simp
  | .none => by rw [inAtomList_other (by simp) (by simp)]; simp [extractOne]
  | .num _ => by rw [inAtomList_other (by simp) (by simp)]; simp [extractOne]
  | .str _ => by rw [inAtomList_other (by simp) (by simp)]; simp [extractOne]
  | .var _ => by rw [inAtomList_other (by simp) (by simp)]; simp [extractOne]
  | .rvar _ => by rw [inAtomList_other (by simp) (by simp)]; simp [extractOne]
  | .tmpl _ _ => by rw [inAtomList_other (by simp) (by simp)]; simp [extractOne]
theorem extractTerms_ok : ∀ (ts : List Value), (∃ r, extractTerms ts = .ok r) ↔ ¬ ∃ ys, .list ys ∈ ts ∧ InAtomList (.tuple []) ys
  | [] => by simp [extractTerms]
  | .list xs :: rest => by
    have hsplit : (¬ ∃ ys, Value.list ys ∈ Value.list xs :: rest ∧ InAtomList (.tuple []) ys) ↔
        (¬ InAtomList (.tuple []) xs) ∧ ¬ ∃ ys, Value.list ys ∈ rest ∧ InAtomList (.tuple []) ys := by
      simp only [List.mem_cons, Value.list.injEq]
      constructor
      · intro h
        exact ⟨fun hx => h ⟨xs, .inl rfl, hx⟩, fun ⟨ys, h1, h2⟩ => h ⟨ys, .inr h1, h2⟩⟩
      · rintro ⟨h1, h2⟩ ⟨ys, rfl | h3, h4⟩
        · exact h1 h4
        · exact h2 ⟨ys, h3, h4⟩
    rw [hsplit, ← extractList_ok xs, ← extractTerms_ok rest]
    simp only [extractTerms]
    cases h1 : extractList xs with
    | error e => simp
    | ok r1 =>
      cases h2 : extractTerms rest with
      | error e => simp
      | ok r2 => simp
  | .none :: rest => by
    have ih := extractTerms_ok rest
    simp only [List.mem_cons, reduceCtorEq, false_or]
    rw [← ih]
    simp only [extractTerms]
    cases h2 : extractTerms rest with
    | error e => simp
    | ok r2 => simp
  | .num _ :: rest => by
    have ih := extractTerms_ok rest
    simp only [List.mem_cons, reduceCtorEq, false_or]
    rw [← ih]
    simp only [extractTerms]
    cases h2 : extractTerms rest with
    | error e => simp
    | ok r2 => simp
  | .str _ :: rest => by
    have ih := extractTerms_ok rest
    simp only [List.mem_cons, reduceCtorEq, false_or]
    rw [← ih]
    simp only [extractTerms]
    cases h2 : extractTerms rest with
    | error e => simp
    | ok r2 => simp
  | .var _ :: rest => by
    have ih := extractTerms_ok rest
    simp only [List.mem_cons, reduceCtorEq, false_or]
    rw [← ih]
    simp only [extractTerms]
    cases h2 : extractTerms rest with
    | error e => simp
    | ok r2 => simp
  | .rvar _ :: rest => by
    have ih := extractTerms_ok rest
    simp only [List.mem_cons, reduceCtorEq, false_or]
    rw [← ih]
    simp only [extractTerms]
    cases h2 : extractTerms rest with
    | error e => simp
    | ok r2 => simp
  | .tuple _ :: rest => by
    have ih := extractTerms_ok rest
    simp only [List.mem_cons, reduceCtorEq, false_or]
    rw [← ih]
    simp only [extractTerms]
    cases h2 : extractTerms rest with
    | error e => simp
    | ok r2 => simp
  | .tmpl _ _ :: rest => by
    have ih := extractTerms_ok rest
    simp only [List.mem_cons, reduceCtorEq, false_or]
    rw [← ih]
    simp only [extractTerms]
    cases h2 : extractTerms rest with
    | error e => simp
    | ok r2 => simp
end

mutual
theorem crossOut_empty : ∀ (xs : List Value), InAtomList (.tuple []) (crossOut xs) → InAtomList (.tuple []) xs
  | [], h => h
  | a :: rest, h => by
    rw [crossOut, inAtomList_append] at h
    rw [inAtomList_cons]
    exact h.imp (crossOutIn_empty a) (crossOut_empty rest)
theorem crossOutIn_empty : ∀ (a : Value), InAtomList (.tuple []) (crossOutIn a) → InAtomList (.tuple []) [a]
  | .list xs, h => by
    rw [crossOutIn, inAtomList_list] at h
    rw [inAtomList_list]
    rcases h with h | h
    · simp at h
    · exact .inr (crossOut_empty xs h)
  | .tuple ts, h => by
    rw [crossOutIn] at h
    rw [inAtomList_tuple]
    cases hr : resolverTerms ts with
    | true => rw [hr] at h; exact absurd h inAtomList_nil
    | false =>
      rw [hr] at h
      simp only [Bool.false_eq_true, if_false, inAtomList_tuple] at h
      rcases h with h | ⟨h1, ys, h2, h3⟩
      · cases ts with
        | nil => exact .inl rfl
        | cons t ts => cases t <;> simp [crossOutBelow] at h
      · exact .inr ⟨by rw [isResolver_tuple, hr]; simp, crossOutBelow_empty ts ys h2 h3⟩
  | .none, h => h
  | .num _, h => h
  | .str _, h => h
  | .var _, h => h
  | .rvar _, h => h
  | .tmpl _ _, h => h
theorem crossOutBelow_empty : ∀ (ts ys : List Value), .list ys ∈ crossOutBelow ts → InAtomList (.tuple []) ys →
    ∃ ys, .list ys ∈ ts ∧ InAtomList (.tuple []) ys
  | [], ys, h, _ => by simp [crossOutBelow] at h
  | .list xs :: rest, ys, h, h' => by
    simp only [crossOutBelow, List.mem_cons, Value.list.injEq] at h
    rcases h with rfl | h
    · exact ⟨xs, by simp, crossOut_empty xs h'⟩
    · obtain ⟨zs, h1, h2⟩ := crossOutBelow_empty rest ys h h'
      exact ⟨zs, List.mem_cons_of_mem _ h1, h2⟩
  | .none :: rest, ys, h, h' => by
    simp only [crossOutBelow, List.mem_cons, reduceCtorEq, false_or] at h
    obtain ⟨zs, h1, h2⟩ := crossOutBelow_empty rest ys h h'
    exact ⟨zs, List.mem_cons_of_mem _ h1, h2⟩
  | .num _ :: rest, ys, h, h' => by
    simp only [crossOutBelow, List.mem_cons, reduceCtorEq, false_or] at h
    obtain ⟨zs, h1, h2⟩ := crossOutBelow_empty rest ys h h'
    exact ⟨zs, List.mem_cons_of_mem _ h1, h2⟩
  | .str _ :: rest, ys, h, h' => by
    simp only [crossOutBelow, List.mem_cons, reduceCtorEq, false_or] at h
    obtain ⟨zs, h1, h2⟩ := crossOutBelow_empty rest ys h h'
    exact ⟨zs, List.mem_cons_of_mem _ h1, h2⟩
  | .var _ :: rest, ys, h, h' => by
    simp only [crossOutBelow, List.mem_cons, reduceCtorEq, false_or] at h
    obtain ⟨zs, h1, h2⟩ := crossOutBelow_empty rest ys h h'
    exact ⟨zs, List.mem_cons_of_mem _ h1, h2⟩
  | .rvar _ :: rest, ys, h, h' => by
    simp only [crossOutBelow, List.mem_cons, reduceCtorEq, false_or] at h
    obtain ⟨zs, h1, h2⟩ := crossOutBelow_empty rest ys h h'
    exact ⟨zs, List.mem_cons_of_mem _ h1, h2⟩
  | .tuple _ :: rest, ys, h, h' => by
    simp only [crossOutBelow, List.mem_cons, reduceCtorEq, false_or] at h
    obtain ⟨zs, h1, h2⟩ := crossOutBelow_empty rest ys h h'
    exact ⟨zs, List.mem_cons_of_mem _ h1, h2⟩
  | .tmpl _ _ :: rest, ys, h, h' => by
    simp only [crossOutBelow, List.mem_cons, reduceCtorEq, false_or] at h
    obtain ⟨zs, h1, h2⟩ := crossOutBelow_empty rest ys h h'
    exact ⟨zs, List.mem_cons_of_mem _ h1, h2⟩
end

/-- **C45** If `sort` returns, its result is: first the name resolvers of all atom lists, in reading order; then the composition with
the resolvers crossed out and everything else in its place. The first part has exactly the resolvers of the composition, the second
part has none left, in no list. -/
theorem C45_front {xs ys : List Value} (h : frontSort xs = .ok ys) :
    ys = resolversOf xs ++ crossOut xs ∧ (∀ v, v ∈ resolversOf xs ↔ IsResolver v ∧ InAtomList v xs) ∧
      ∀ v, InAtomList v (crossOut xs) → ¬ IsResolver v := by
  refine ⟨?_, resolversOf_iff xs, crossOut_in xs⟩
  unfold frontSort at h
  cases h1 : extractList xs with
  | error e => simp [h1] at h
  | ok r =>
    obtain ⟨rs, kept⟩ := r
    simp only [h1, Except.ok.injEq] at h
    obtain ⟨rfl, rfl⟩ := extractList_eq xs rs kept h1
    exact h.symm

/-- **C45** `sort` returns for all compositions in which no list that it goes through has an empty tuple. -/
theorem C45_returns (xs : List Value) : (∃ ys, frontSort xs = .ok ys) ↔ ¬ InAtomList (.tuple []) xs := by
  rw [← extractList_ok]
  unfold frontSort
  cases extractList xs with
  | error e => simp
  | ok r => simp

/-- **C45** Sorting the result again gives the same. -/
theorem C45_idempotent {xs ys : List Value} (h : frontSort xs = .ok ys) : frontSort ys = .ok ys := by
  obtain ⟨rfl, h2, _⟩ := C45_front h
  have hrs := resolversOf_resolvers fun r hr => ((h2 r).1 hr).1
  have hne : ¬ InAtomList (.tuple []) (resolversOf xs ++ crossOut xs) := by
    have h0 := (C45_returns xs).1 ⟨_, h⟩
    rw [inAtomList_append]
    rintro (h' | h')
    · have := crossOut_empty
      cases h' with
      | here hm =>
        obtain ⟨_, hx⟩ := ((h2 _).1 hm).1
        simp at hx
      | list hm _ =>
        obtain ⟨_, hx⟩ := ((h2 _).1 hm).1
        simp at hx
      | arg hm hr _ _ => exact hr ((h2 _).1 hm).1
    · exact h0 (crossOut_empty xs h')
  obtain ⟨zs, hz⟩ := (C45_returns _).2 hne
  rw [hz, (C45_front hz).1, resolversOf_append, crossOut_append, hrs.1, hrs.2, resolversOf_crossOut, crossOut_crossOut]
  simp

/-- A resolver nested two lists deep and one at the top level, both moved. -/
example : frontSort [.tuple [.str "p", .var "X"], .tuple [.str "not", .list [.tuple [.str "all", .list [.tuple [.str "resolve_name", .str "a", .var "X"]]],
      .tuple [.str "q", .var "X"]]], .tuple [.str "resolve_name", .str "b", .var "Y"]] =
    .ok [.tuple [.str "resolve_name", .str "a", .var "X"], .tuple [.str "resolve_name", .str "b", .var "Y"], .tuple [.str "p", .var "X"],
      .tuple [.str "not", .list [.tuple [.str "all", .list []], .tuple [.str "q", .var "X"]]]] := by decide +kernel

example := C45_front (xs := [.tuple [.str "p", .var "X"], .tuple [.str "resolve_name", .str "b", .var "X"]]) (by rfl)
example := C45_idempotent (xs := [.tuple [.str "p", .var "X"], .tuple [.str "resolve_name", .str "b", .var "X"]]) (by rfl)

end Verif

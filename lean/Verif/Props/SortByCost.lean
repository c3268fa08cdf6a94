import Verif.Optimizer

/-!
# C46: sorting by cost
-/

namespace Verif

/-! ## Specification -/

/-- The sizes of those arguments that have a size and are bound: a constant, or a variable that is bound. -/
def boundSizes (bound : List String) (args : List Value) (sizes : List (Option Nat)) : List Nat :=
  (args.zip sizes).filterMap fun p => match p.1 with
    | .var x => if x ∈ bound then p.2 else none
    | .list _ => none
    | .tuple _ => none
    | _ => p.2

/-- The cost of an atom according to a relation: the size of the relation, divided by the sizes of the bound arguments. -/
inductive RelationCost {W : Type} (bound : List String) (args : List Value) (r : Relation W) : Rat → Prop
  | unknown : r.relationSize = none → RelationCost bound args r 1000000000000
  | known {size c} : r.relationSize = some size → args.length = r.argumentSizes.length →
      (boundSizes bound args r.argumentSizes).prod ≠ 0 → c * ((boundSizes bound args r.argumentSizes).prod : Rat) = size →
      RelationCost bound args r c

/-- The cost of an atom: the largest according to the relations of the predicate, 0 if there are none. -/
inductive IsCost {W : Type} (rels : String → List (Relation W)) (bound : List String) (a : Value) : Rat → Prop
  | noRelations : elements a ≠ [] → (∀ p args, elements a = .str p :: args → rels p = []) → IsCost rels bound a 0
  | largest {p args r c} : elements a = .str p :: args → r ∈ rels p → RelationCost bound args r c →
      (∀ r' ∈ rels p, ∃ c', RelationCost bound args r' c' ∧ c' ≤ c) → IsCost rels bound a c

/-- The value is a list that starts with an atom. -/
def IsAtoms (v : Value) : Prop := ∃ ts xs, v = .list (.tuple ts :: xs)

mutual
/-- The second list has the atoms of the first in a greedy order: each is one of the cheapest of those that are left, given the
variables bound initially and those of the atoms before it; the lists of atoms among its arguments are in a greedy order too. -/
inductive Greedy (cost : List String → Value → Rat → Prop) : List String → List Value → List Value → Prop
  | nil {bound} : Greedy cost bound [] []
  | cons {bound todo a rest c a' out} : todo.Perm (a :: rest) → cost bound a c → (∀ x ∈ todo, ∃ c', cost bound x c' ∧ c ≤ c') →
      GreedyAtom cost bound a a' → Greedy cost (bound ++ varsOf a') rest out → Greedy cost bound todo (a' :: out)
/-- An atom, with the lists of atoms among its arguments in a greedy order. -/
inductive GreedyAtom (cost : List String → Value → Rat → Prop) : List String → Value → Value → Prop
  | same {bound a} : (∀ x ∈ elements a, ¬ IsAtoms x) → GreedyAtom cost bound a a
  | args {bound a x ts} : x ∈ elements a → IsAtoms x → GreedyArgs cost bound (elements a) ts → GreedyAtom cost bound a (.tuple ts)
/-- Arguments, with the lists of atoms among them in a greedy order. -/
inductive GreedyArgs (cost : List String → Value → Rat → Prop) : List String → List Value → List Value → Prop
  | nil {bound} : GreedyArgs cost bound [] []
  | other {bound a as bs} : ¬ IsAtoms a → GreedyArgs cost bound as bs → GreedyArgs cost bound (a :: as) (a :: bs)
  | atoms {bound xs ys as bs} : IsAtoms (.list xs) → Greedy cost bound xs ys → GreedyArgs cost bound as bs →
      GreedyArgs cost bound (.list xs :: as) (.list ys :: bs)
end

mutual
/-- The second list of atoms is a reordering of the first, up to reordering of lists of atoms in arguments. -/
inductive Reorder : List Value → List Value → Prop
  | mk {xs ys zs} : xs.Perm ys → ReorderAll ys zs → Reorder xs zs
/-- Elementwise reordering. -/
inductive ReorderAll : List Value → List Value → Prop
  | nil : ReorderAll [] []
  | cons {a b as bs} : ReorderAtom a b → ReorderAll as bs → ReorderAll (a :: as) (b :: bs)
/-- Reordering of lists of atoms that are arguments. -/
inductive ReorderAtom : Value → Value → Prop
  | same {a} : ReorderAtom a a
  | args {a ts} : ReorderArgs (elements a) ts → ReorderAtom a (.tuple ts)
/-- The same for arguments. -/
inductive ReorderArgs : List Value → List Value → Prop
  | nil : ReorderArgs [] []
  | same {a as bs} : ReorderArgs as bs → ReorderArgs (a :: as) (a :: bs)
  | atoms {xs ys as bs} : Reorder xs ys → ReorderArgs as bs → ReorderArgs (.list xs :: as) (.list ys :: bs)
end

/-! ## Proofs -/

section
variable {W : Type}

theorem boundSize_eq (bound : List String) (args : List Value) (sizes : List (Option Nat)) :
    boundSize bound args sizes = (boundSizes bound args sizes).prod := by
  induction args generalizing sizes with
  | nil => simp [boundSize, boundSizes]
  | cons a as ih =>
    cases sizes with
    | nil => simp [boundSize, boundSizes]
    | cons s ss =>
      have ih' := ih ss
      cases s with
      | none =>
        simp only [boundSize, ih']
        cases a <;> simp [boundSizes]
      | some n =>
        cases a with
        | var x =>
          by_cases hx : x ∈ bound
          · simp [boundSize, boundSizes, ih', hx]
          · simp [boundSize, boundSizes, ih', hx]
        | _ => simp [boundSize, boundSizes, ih']

theorem relationCost_ok {bound : List String} {args : List Value} {r : Relation W} {c : Rat} :
    relationCost bound args r = .ok c ↔ RelationCost bound args r c := by
  unfold relationCost
  cases hr : r.relationSize with
  | none =>
    simp only [Except.ok.injEq]
    constructor
    · rintro rfl; exact .unknown hr
    · intro h
      cases h with
      | unknown _ => rfl
      | known h => rw [hr] at h; cases h
  | some size =>
    simp only [boundSize_eq]
    by_cases hl : args.length = r.argumentSizes.length
    · simp only [hl, ne_eq, not_true_eq_false, if_false]
      by_cases hz : (boundSizes bound args r.argumentSizes).prod = 0
      · simp only [hz, if_true, reduceCtorEq, false_iff]
        intro h
        cases h with
        | unknown h => rw [hr] at h; cases h
        | known _ _ h _ => exact h hz
      · simp only [hz, if_false, Except.ok.injEq]
        have hz' : ((boundSizes bound args r.argumentSizes).prod : Rat) ≠ 0 := by
          intro h; exact hz (by exact_mod_cast h)
        constructor
        · rintro rfl
          exact .known hr hl hz (Rat.div_mul_cancel hz')
        · intro h
          cases h with
          | unknown h => rw [hr] at h; cases h
          | known h _ _ h' =>
            rw [hr] at h; cases h
            rw [← h', Rat.mul_div_cancel hz']
    · simp only [ne_eq, hl, not_false_eq_true, if_true, reduceCtorEq, false_iff]
      intro h
      cases h with
      | unknown h => rw [hr] at h; cases h
      | known _ h _ _ => exact hl h

theorem maxCost_ok {bound : List String} {args : List Value} {rs : List (Relation W)} {best : Option Rat} {c : Rat}
    (h : maxCost bound args rs best = .ok c) :
    (best = none ∧ rs = [] ∧ c = 0) ∨ ((best = some c ∨ ∃ r ∈ rs, RelationCost bound args r c) ∧ (∀ b, best = some b → b ≤ c) ∧
      ∀ r ∈ rs, ∃ c', RelationCost bound args r c' ∧ c' ≤ c) := by
  induction rs generalizing best with
  | nil =>
    simp only [maxCost, Except.ok.injEq] at h
    cases best with
    | none => left; simp at h; exact ⟨rfl, rfl, h.symm⟩
    | some b =>
      simp at h; subst h
      right
      exact ⟨.inl rfl, by simp, by simp⟩
  | cons r rs ih =>
    rw [maxCost] at h
    cases hc : relationCost bound args r with
    | error e => simp [hc] at h
    | ok c0 =>
      simp only [hc] at h
      have hr := relationCost_ok.1 hc
      right
      rcases ih h with ⟨h1, _⟩ | ⟨h1, h2, h3⟩
      · simp at h1
      · have hb := h2 _ rfl
        refine ⟨?_, ?_, ?_⟩
        · rcases h1 with h1 | ⟨r', hr', hc'⟩
          · cases best with
            | none =>
              simp only [Option.some.injEq] at h1
              subst h1
              exact .inr ⟨r, by simp, hr⟩
            | some b =>
              simp only [Option.some.injEq] at h1
              split at h1
              · subst h1; exact .inr ⟨r, by simp, hr⟩
              · subst h1; exact .inl rfl
          · exact .inr ⟨r', by simp [hr'], hc'⟩
        · intro b hbb
          subst hbb
          simp only at hb
          split at hb
          · rename_i hlt; exact Rat.le_trans (Rat.le_of_lt hlt) hb
          · exact hb
        · intro r' hr'
          rcases List.mem_cons.1 hr' with rfl | hr'
          · refine ⟨c0, hr, ?_⟩
            cases best with
            | none => simpa using hb
            | some b =>
              simp only at hb
              split at hb
              · exact hb
              · rename_i hlt; exact Rat.le_trans (Rat.not_lt.1 hlt) hb
          · exact h3 r' hr'

theorem atomCost_ok {rels : String → List (Relation W)} {bound : List String} {a : Value} {c : Rat}
    (h : atomCost rels bound a = .ok c) : IsCost rels bound a c := by
  have main : ∀ p args, elements a = .str p :: args → maxCost bound args (rels p) none = .ok c → IsCost rels bound a c := by
    intro p args he hm
    rcases maxCost_ok hm with ⟨_, h1, rfl⟩ | ⟨h1, _, h3⟩
    · exact .noRelations (by simp [he]) (fun p' args' he' => by rw [he] at he'; cases he'; exact h1)
    · rcases h1 with h1 | ⟨r, hr, hc⟩
      · simp at h1
      · exact .largest he hr hc h3
  unfold atomCost at h
  split at h
  · exact main _ _ rfl h
  · exact main _ _ rfl h
  · cases h
  · cases h
  · rename_i ts h1 h2
    cases h
    exact .noRelations (fun h => h2 (by simpa [elements] using h)) (fun p args he => absurd (by simpa [elements] using he) (h1 p args))
  · rename_i ts h1 h2
    cases h
    exact .noRelations (fun h => h2 (by simpa [elements] using h)) (fun p args he => absurd (by simpa [elements] using he) (h1 p args))
  · cases h

theorem costAll_ok {rels : String → List (Relation W)} {bound : List String} {as : List Value} {cs : List (Value × Rat)}
    (h : costAll rels bound as = .ok cs) : cs.map Prod.fst = as ∧ ∀ p ∈ cs, IsCost rels bound p.1 p.2 := by
  induction as generalizing cs with
  | nil => simp [costAll] at h; subst h; simp
  | cons a as ih =>
    rw [costAll] at h
    cases h1 : atomCost rels bound a with
    | error e => simp [h1] at h
    | ok c =>
      cases h2 : costAll rels bound as with
      | error e => simp [h1, h2] at h
      | ok cs' =>
        simp only [h1, h2, Except.ok.injEq] at h
        subst h
        obtain ⟨e, hall⟩ := ih h2
        refine ⟨by simp [e], ?_⟩
        intro p hp
        rcases List.mem_cons.1 hp with rfl | hp
        · exact atomCost_ok h1
        · exact hall p hp

theorem insertCost_perm (x : Value × Rat) (xs : List (Value × Rat)) : (insertCost x xs).Perm (x :: xs) := by
  induction xs with
  | nil => exact .refl _
  | cons y ys ih =>
    rw [insertCost]
    split
    · exact .refl _
    · exact (ih.cons y).trans (.swap x y ys)

theorem sortCosts_perm (xs : List (Value × Rat)) : (sortCosts xs).Perm xs := by
  induction xs with
  | nil => exact .refl _
  | cons x xs ih => exact (insertCost_perm x _).trans (ih.cons x)

theorem insertCost_head {x : Value × Rat} {xs : List (Value × Rat)} (h : ∀ y ys, xs = y :: ys → ∀ z ∈ ys, y.2 ≤ z.2) :
    ∀ y ys, insertCost x xs = y :: ys → ∀ z ∈ ys, y.2 ≤ z.2 := by
  intro y ys he z hz
  cases xs with
  | nil => simp [insertCost] at he; rw [he.2] at hz; simp at hz
  | cons u us =>
    have hu := h u us rfl
    rw [insertCost] at he
    split at he
    · rename_i hle
      simp only [List.cons.injEq] at he
      obtain ⟨rfl, rfl⟩ := he
      rcases List.mem_cons.1 hz with rfl | hz
      · exact hle
      · exact Rat.le_trans hle (hu z hz)
    · rename_i hle
      simp only [List.cons.injEq] at he
      obtain ⟨rfl, rfl⟩ := he
      rcases List.mem_cons.1 ((insertCost_perm x us).mem_iff.1 hz) with rfl | hz
      · rcases Rat.le_total (a := z.2) (b := u.2) with h' | h'
        · exact absurd h' hle
        · exact h'
      · exact hu z hz

theorem sortCosts_head (xs : List (Value × Rat)) : ∀ y ys, sortCosts xs = y :: ys → ∀ z ∈ ys, y.2 ≤ z.2 := by
  induction xs with
  | nil => intro y ys h; simp [sortCosts] at h
  | cons x xs ih => exact insertCost_head ih

theorem isAtomList_iff {v : Value} : isAtomList v = true ↔ IsAtoms v := by
  unfold isAtomList IsAtoms
  split <;> simp_all

theorem sortArgs_ok {cost : List String → Value → Rat → Prop} {bound : List String} {sort : List Value → M W (List Value)} {w : W}
    (hsort : ∀ xs w' ys, sort xs w = .ok w' ys → w' = w ∧ Greedy cost bound xs ys) :
    ∀ (as : List Value) (w' : W) (bs : List Value), sortArgs sort as w = .ok w' bs → w' = w ∧ GreedyArgs cost bound as bs := by
  intro as
  induction as with
  | nil => intro w' bs h; simp [sortArgs] at h; obtain ⟨rfl, rfl⟩ := h; exact ⟨rfl, .nil⟩
  | cons a as ih =>
    intro w' bs h
    rw [sortArgs] at h
    split at h
    · rename_i ha
      obtain ⟨ts, xs, rfl⟩ := isAtomList_iff.1 ha
      rw [M.bind_eq_ok] at h
      obtain ⟨w1, ys, h1, h⟩ := h
      obtain ⟨rfl, hg⟩ := hsort _ _ _ h1
      rw [M.bind_eq_ok] at h
      obtain ⟨w2, bs', h2, h⟩ := h
      obtain ⟨rfl, hg'⟩ := ih _ _ h2
      rw [M.pure_eq_ok] at h
      obtain ⟨rfl, rfl⟩ := h
      exact ⟨rfl, .atoms ⟨ts, xs, rfl⟩ hg hg'⟩
    · rename_i ha
      rw [M.bind_eq_ok] at h
      obtain ⟨w2, bs', h2, h⟩ := h
      obtain ⟨rfl, hg'⟩ := ih _ _ h2
      rw [M.pure_eq_ok] at h
      obtain ⟨rfl, rfl⟩ := h
      exact ⟨rfl, .other (fun h => ha (isAtomList_iff.2 h)) hg'⟩

theorem sortArguments_ok {cost : List String → Value → Rat → Prop} {bound : List String} {sort : List Value → M W (List Value)} {w : W}
    (hsort : ∀ xs w' ys, sort xs w = .ok w' ys → w' = w ∧ Greedy cost bound xs ys) {a : Value} {w' : W} {a' : Value}
    (h : sortArguments sort a w = .ok w' a') : w' = w ∧ GreedyAtom cost bound a a' := by
  rw [sortArguments] at h
  split at h
  · rename_i hany
    obtain ⟨x, hx, hx'⟩ := List.any_eq_true.1 hany
    rw [M.bind_eq_ok] at h
    obtain ⟨w1, ts, h1, h⟩ := h
    obtain ⟨rfl, hg⟩ := sortArgs_ok hsort _ _ _ h1
    rw [M.pure_eq_ok] at h
    obtain ⟨rfl, rfl⟩ := h
    exact ⟨rfl, .args hx (isAtomList_iff.1 hx') hg⟩
  · rename_i hany
    rw [M.pure_eq_ok] at h
    obtain ⟨rfl, rfl⟩ := h
    refine ⟨rfl, .same fun x hx hat => hany (List.any_eq_true.2 ⟨x, hx, isAtomList_iff.2 hat⟩)⟩

theorem sortByCost_ok (rels : String → List (Relation W)) (n : Nat) : ∀ (bound : List String) (todo : List Value) (w w' : W) (out : List Value),
    sortByCost rels n bound todo w = .ok w' out → w' = w ∧ Greedy (IsCost rels) bound todo out := by
  induction n with
  | zero =>
    intro bound todo w w' out h
    cases todo with
    | nil => simp [sortByCost] at h; obtain ⟨rfl, rfl⟩ := h; exact ⟨rfl, .nil⟩
    | cons a as => simp [sortByCost] at h
  | succ n ih =>
    intro bound todo w w' out h
    cases todo with
    | nil => simp [sortByCost] at h; obtain ⟨rfl, rfl⟩ := h; exact ⟨rfl, .nil⟩
    | cons a as =>
      rw [sortByCost, M.bind_eq_ok] at h
      obtain ⟨w1, cs, h1, h⟩ := h
      obtain ⟨rfl, hcs⟩ := M.lift_eq_ok.1 h1
      obtain ⟨hmap, hcost⟩ := costAll_ok hcs
      have hperm := sortCosts_perm cs
      have hhead := sortCosts_head cs
      cases hs : sortCosts cs with
      | nil =>
        rw [hs] at hperm
        rw [List.perm_nil.1 hperm.symm] at hmap
        simp at hmap
      | cons y ys =>
        rw [hs] at h hperm
        simp only [List.map_cons] at h
        rw [M.bind_eq_ok] at h
        obtain ⟨w2, first, h2, h⟩ := h
        obtain ⟨rfl, hg⟩ := sortArguments_ok (fun xs w' zs => ih bound xs _ w' zs) h2
        rw [M.bind_eq_ok] at h
        obtain ⟨w3, rest, h3, h⟩ := h
        obtain ⟨rfl, hg'⟩ := ih _ _ _ _ _ h3
        rw [M.pure_eq_ok] at h
        obtain ⟨rfl, rfl⟩ := h
        have hp : (a :: as).Perm (y.1 :: ys.map Prod.fst) := by
          rw [← hmap]; exact (hperm.map Prod.fst).symm
        refine ⟨rfl, .cons hp (hcost y (hperm.mem_iff.1 (by simp))) ?_ hg hg'⟩
        intro x hx
        rw [← hmap] at hx
        obtain ⟨z, hz, rfl⟩ := List.mem_map.1 hx
        refine ⟨z.2, hcost z hz, ?_⟩
        rcases List.mem_cons.1 (hperm.mem_iff.2 hz) with rfl | hz'
        · exact Rat.le_refl
        · exact hhead y ys hs z hz'

mutual
theorem Greedy.reorder {cost : List String → Value → Rat → Prop} {bound : List String} {xs ys : List Value} (h : Greedy cost bound xs ys) :
    Reorder xs ys := by
  cases h with
  | nil => exact .mk (.refl _) .nil
  | cons hp _ _ ha hr =>
    cases hr.reorder with
    | mk hp' hall => exact .mk (hp.trans (hp'.cons _)) (.cons ha.reorder hall)
theorem GreedyAtom.reorder {cost : List String → Value → Rat → Prop} {bound : List String} {x y : Value} (h : GreedyAtom cost bound x y) :
    ReorderAtom x y := by
  cases h with
  | same _ => exact .same
  | args _ _ h => exact .args h.reorder
theorem GreedyArgs.reorder {cost : List String → Value → Rat → Prop} {bound : List String} {xs ys : List Value}
    (h : GreedyArgs cost bound xs ys) : ReorderArgs xs ys := by
  cases h with
  | nil => exact .nil
  | other _ h => exact .same h.reorder
  | atoms _ h h' => exact .atoms h.reorder h'.reorder
end

/-! Termination -/

theorem costFuelAll_perm {xs ys : List Value} (h : xs.Perm ys) : costFuelAll xs = costFuelAll ys := by
  induction h with
  | nil => rfl
  | cons x _ ih => simp [costFuelAll, ih]
  | swap x y l => simp only [costFuelAll]; omega
  | trans _ _ h1 h2 => rw [h1, h2]

theorem costFuelAll_mem {x : Value} {xs : List Value} (h : x ∈ xs) : costFuel x ≤ costFuelAll xs := by
  induction xs with
  | nil => simp at h
  | cons y ys ih =>
    rw [costFuelAll]
    rcases List.mem_cons.1 h with rfl | h
    · omega
    · have := ih h; omega

theorem costFuel_pos (v : Value) : 0 < costFuel v := by
  cases v <;> simp [costFuel]

theorem costFuel_elements (v : Value) : costFuelAll (elements v) < costFuel v := by
  cases v <;> simp [costFuel, elements, costFuelAll]

theorem sortArgs_fin {sort : List Value → M W (List Value)} {w : W} (as : List Value)
    (hw : ∀ xs w' ys, sort xs w = .ok w' ys → w' = w) (hsort : ∀ a ∈ as, sort (elements a) w ≠ .oof) : sortArgs sort as w ≠ .oof := by
  induction as with
  | nil => simp [sortArgs]
  | cons a as ih =>
    have ih' := ih fun x hx => hsort x (by simp [hx])
    rw [sortArgs]
    have hb : ∀ v, ((sortArgs sort as >>= fun rest => pure (v :: rest)) : M W (List Value)) w ≠ .oof := by
      intro v
      rw [M.bind_run]
      cases h : sortArgs sort as w with
      | ok => simp
      | err => simp
      | oof => exact absurd h ih'
    split
    · rw [M.bind_run]
      cases h : sort (elements a) w with
      | ok w1 xs =>
        have := hw _ _ _ h
        subst this
        exact hb _
      | err => simp
      | oof => exact absurd h (hsort a (by simp))
    · exact hb _

theorem sortByCost_fin (rels : String → List (Relation W)) (n : Nat) : ∀ (bound : List String) (todo : List Value) (w : W),
    costFuelAll todo ≤ n → sortByCost rels n bound todo w ≠ .oof := by
  induction n with
  | zero =>
    intro bound todo w h
    cases todo with
    | nil => simp [sortByCost]
    | cons a as => have := costFuel_pos a; simp [costFuelAll] at h; omega
  | succ n ih =>
    intro bound todo w h
    cases todo with
    | nil => simp [sortByCost]
    | cons a as =>
      rw [sortByCost, M.bind_run]
      cases hcs : costAll rels bound (a :: as) with
      | error e => simp [M.lift]
      | ok cs =>
        have hw : (M.lift (.ok cs) : M W _) w = .ok w cs := rfl
        rw [hw]
        simp only
        obtain ⟨hmap, _⟩ := costAll_ok hcs
        have hperm := (sortCosts_perm cs).map Prod.fst
        rw [hmap] at hperm
        cases hs : (sortCosts cs).map Prod.fst with
        | nil => simp
        | cons first rest =>
          rw [hs] at hperm
          have hfuel := costFuelAll_perm hperm
          rw [costFuelAll] at hfuel
          simp only
          rw [M.bind_run]
          have h1 : sortArguments (sortByCost rels n bound) first w ≠ .oof := by
            rw [sortArguments]
            split
            · have := sortArgs_fin (sort := sortByCost rels n bound) (w := w) (elements first) (fun xs w' ys h => (sortByCost_ok rels n bound xs w w' ys h).1)
                (fun x hx => ih bound (elements x) w (by
                  have h1 := costFuelAll_mem hx
                  have h2 := costFuel_elements first
                  have h3 := costFuel_elements x
                  omega))
              rw [M.bind_run]
              cases h' : sortArgs (sortByCost rels n bound) (elements first) w with
              | ok => simp
              | err => simp
              | oof => exact absurd h' this
            · simp
          cases h2 : sortArguments (sortByCost rels n bound) first w with
          | err => simp
          | oof => exact absurd h2 h1
          | ok w1 first' =>
            simp only
            have h3 := ih (bound ++ varsOf first') rest w1 (by have := costFuel_pos first; omega)
            rw [M.bind_run]
            cases h4 : sortByCost rels n (bound ++ varsOf first') rest w1 with
            | ok => simp
            | err => simp
            | oof => exact absurd h4 h3

/-- **C46** If sorting by cost returns, the result is in a greedy order; nothing in the world has changed. -/
theorem C46_greedy {mods : List (Module W)} {atoms out : List Value} {w w' : W} (h : sortComposition mods atoms w = .ok w' out) :
    w' = w ∧ Greedy (IsCost (findRelations mods w)) [] atoms out := by
  rw [sortComposition, M.bind_eq_ok] at h
  obtain ⟨w1, rels, h1, h⟩ := h
  simp only [M.gets_run, Res.ok.injEq] at h1
  obtain ⟨rfl, rfl⟩ := h1
  exact sortByCost_ok _ _ _ _ _ _ _ h

/-- **C46** The result is a reordering of the atoms, at all levels. -/
theorem C46_permutation {mods : List (Module W)} {atoms out : List Value} {w w' : W} (h : sortComposition mods atoms w = .ok w' out) :
    Reorder atoms out := (C46_greedy h).2.reorder

/-- **C46** Sorting by cost comes to an end: it returns or raises. -/
theorem C46_terminates (mods : List (Module W)) (atoms : List Value) (w : W) : sortComposition mods atoms w ≠ .oof := by
  rw [sortComposition, M.bind_run]
  exact sortByCost_fin _ _ _ _ _ (Nat.le_refl _)

/-- The atoms that are sorted: those of the list, and those of the lists of atoms among their arguments, at any depth. -/
inductive Sorted : Value → List Value → Prop
  | top {a xs} : a ∈ xs → Sorted a xs
  | inside {a b v xs} : b ∈ xs → v ∈ elements b → IsAtoms v → Sorted a (elements v) → Sorted a xs

theorem Sorted.sub {a : Value} {xs ys : List Value} (h : Sorted a xs) (hs : ∀ x ∈ xs, x ∈ ys) : Sorted a ys := by
  cases h with
  | top h => exact .top (hs _ h)
  | inside h1 h2 h3 h4 => exact .inside (hs _ h1) h2 h3 h4

theorem costAll_error {rels : String → List (Relation W)} {bound : List String} {as : List Value} {e : Err} (h : costAll rels bound as = .error e) :
    ∃ a ∈ as, atomCost rels bound a = .error e := by
  induction as with
  | nil => cases h
  | cons a as ih =>
    rw [costAll] at h
    cases hc : atomCost rels bound a with
    | error e' =>
      rw [hc] at h
      cases h
      exact ⟨a, by simp, hc⟩
    | ok c =>
      rw [hc] at h
      simp only at h
      cases hcs : costAll rels bound as with
      | error e' =>
        rw [hcs] at h
        cases h
        obtain ⟨x, hx, h⟩ := ih hcs
        exact ⟨x, by simp [hx], h⟩
      | ok cs => rw [hcs] at h; cases h

theorem sortArgs_err {sort : List Value → M W (List Value)} {w : W} (hw : ∀ xs w' ys, sort xs w = .ok w' ys → w' = w) (as : List Value)
    {w' : W} {e : Err} (h : sortArgs sort as w = .err w' e) : ∃ a ∈ as, IsAtoms a ∧ ∃ w1, sort (elements a) w = .err w1 e := by
  induction as with
  | nil => simp [sortArgs] at h
  | cons a as ih =>
    rw [sortArgs] at h
    have hb : ∀ v, ((sortArgs sort as >>= fun rest => pure (v :: rest)) : M W (List Value)) w = .err w' e →
        ∃ x ∈ a :: as, IsAtoms x ∧ ∃ w1, sort (elements x) w = .err w1 e := by
      intro v hv
      rw [M.bind_run] at hv
      cases h1 : sortArgs sort as w with
      | ok w1 ys => rw [h1] at hv; simp at hv
      | oof => rw [h1] at hv; simp at hv
      | err w1 e1 =>
        rw [h1] at hv
        simp only [Res.err.injEq] at hv
        obtain ⟨rfl, rfl⟩ := hv
        obtain ⟨x, hx, h⟩ := ih h1
        exact ⟨x, by simp [hx], h⟩
    split at h
    · rename_i ha
      rw [M.bind_run] at h
      cases h1 : sort (elements a) w with
      | ok w1 xs =>
        rw [h1] at h
        have := hw _ _ _ h1
        subst this
        exact hb _ h
      | oof => rw [h1] at h; simp at h
      | err w1 e1 =>
        rw [h1] at h
        simp only [Res.err.injEq] at h
        obtain ⟨rfl, rfl⟩ := h
        exact ⟨a, by simp, isAtomList_iff.1 ha, w1, h1⟩
    · exact hb _ h

theorem sortByCost_err (rels : String → List (Relation W)) (n : Nat) : ∀ (bound : List String) (todo : List Value) (w w' : W) (e : Err),
    sortByCost rels n bound todo w = .err w' e → ∃ a bound', Sorted a todo ∧ atomCost rels bound' a = .error e := by
  induction n with
  | zero =>
    intro bound todo w w' e h
    cases todo with
    | nil => simp [sortByCost] at h
    | cons a as => rw [sortByCost] at h; cases h
  | succ n ih =>
    intro bound todo w w' e h
    cases todo with
    | nil => simp [sortByCost] at h
    | cons a as =>
      rw [sortByCost, M.bind_run] at h
      cases hcs : costAll rels bound (a :: as) with
      | error e' =>
        rw [hcs] at h
        have hl : (M.lift (.error e') : M W (List (Value × Rat))) w = .err w e' := rfl
        rw [hl] at h
        simp only [Res.err.injEq] at h
        obtain ⟨rfl, rfl⟩ := h
        obtain ⟨x, hx, hc⟩ := costAll_error hcs
        exact ⟨x, bound, .top hx, hc⟩
      | ok cs =>
        rw [hcs] at h
        have hw : (M.lift (.ok cs) : M W _) w = .ok w cs := rfl
        rw [hw] at h
        simp only at h
        obtain ⟨hmap, _⟩ := costAll_ok hcs
        have hperm := (sortCosts_perm cs).map Prod.fst
        rw [hmap] at hperm
        cases hs : (sortCosts cs).map Prod.fst with
        | nil => rw [hs] at h; simp at h
        | cons first rest =>
          rw [hs] at hperm h
          simp only at h
          rw [M.bind_run] at h
          cases h1 : sortArguments (sortByCost rels n bound) first w with
          | oof => rw [h1] at h; simp at h
          | err w1 e1 =>
            rw [h1] at h
            simp only [Res.err.injEq] at h
            obtain ⟨rfl, rfl⟩ := h
            rw [sortArguments] at h1
            split at h1
            · rw [M.bind_run] at h1
              cases h2 : sortArgs (sortByCost rels n bound) (elements first) w with
              | ok w2 ys => rw [h2] at h1; simp at h1
              | oof => rw [h2] at h1; simp at h1
              | err w2 e2 =>
                rw [h2] at h1
                simp only [Res.err.injEq] at h1
                obtain ⟨rfl, rfl⟩ := h1
                obtain ⟨x, hx, hat, w3, h3⟩ := sortArgs_err (fun xs w' ys h => (sortByCost_ok rels n bound xs w w' ys h).1) _ h2
                obtain ⟨y, b', hy, hc⟩ := ih _ _ _ _ _ h3
                exact ⟨y, b', .inside (hperm.mem_iff.1 (by simp)) hx hat hy, hc⟩
            · simp at h1
          | ok w1 first' =>
            rw [h1] at h
            simp only at h
            rw [M.bind_run] at h
            cases h2 : sortByCost rels n (bound ++ varsOf first') rest w1 with
            | ok w2 ys => rw [h2] at h; simp at h
            | oof => rw [h2] at h; simp at h
            | err w2 e2 =>
              rw [h2] at h
              simp only [Res.err.injEq] at h
              obtain ⟨rfl, rfl⟩ := h
              obtain ⟨y, b', hy, hc⟩ := ih _ _ _ _ _ h2
              exact ⟨y, b', hy.sub fun x hx => hperm.mem_iff.1 (by simp [hx]), hc⟩

/-- **C46** Sorting by cost raises only if the cost of one of the atoms, at any depth, cannot be computed. -/
theorem C46_raises {mods : List (Module W)} {atoms : List Value} {w w' : W} {e : Err} (h : sortComposition mods atoms w = .err w' e) :
    ∃ a bound, Sorted a atoms ∧ atomCost (findRelations mods w) bound a = .error e := by
  rw [sortComposition, M.bind_ok (M.gets_run _ w)] at h
  exact sortByCost_err _ _ _ _ _ _ _ h

theorem maxCost_total {bound : List String} {args : List Value} {rs : List (Relation W)} {best : Option Rat}
    (h : ∀ r ∈ rs, ∃ c, RelationCost bound args r c) : ∃ c, maxCost bound args rs best = .ok c := by
  induction rs generalizing best with
  | nil => exact ⟨_, rfl⟩
  | cons r rs ih =>
    obtain ⟨c, hc⟩ := h r (by simp)
    simp only [maxCost, relationCost_ok.2 hc]
    exact ih fun r' hr' => h r' (by simp [hr'])

theorem relationCost_unique {bound : List String} {args : List Value} {r : Relation W} {c c' : Rat} (h : RelationCost bound args r c)
    (h' : RelationCost bound args r c') : c = c' := by
  have := (relationCost_ok.2 h).symm.trans (relationCost_ok.2 h')
  cases this; rfl

/-- **C46** The cost of an atom is unique. -/
theorem C46_cost_unique {rels : String → List (Relation W)} {bound : List String} {a : Value} {c c' : Rat} (h : IsCost rels bound a c)
    (h' : IsCost rels bound a c') : c = c' := by
  cases h with
  | noRelations h1 h2 =>
    cases h' with
    | noRelations _ _ => rfl
    | largest he hr _ _ => rw [h2 _ _ he] at hr; simp at hr
  | largest he hr hc hmax =>
    cases h' with
    | noRelations h1 h2 => rw [h2 _ _ he] at hr; simp at hr
    | largest he' hr' hc' hmax' =>
      rw [he] at he'; cases he'
      obtain ⟨c1, h1, h2⟩ := hmax _ hr'
      obtain ⟨c2, h3, h4⟩ := hmax' _ hr
      rw [relationCost_unique h1 hc'] at h2
      rw [relationCost_unique h3 hc] at h4
      exact Rat.le_antisymm h4 h2

/-- If the atoms have no lists of atoms as arguments, and all relations have a cost for them, sorting returns. -/
theorem sortByCost_total (rels : String → List (Relation W)) (n : Nat) : ∀ (bound : List String) (todo : List Value) (w : W),
    todo.length ≤ n → (∀ a ∈ todo, ∀ x ∈ elements a, ¬ IsAtoms x) →
    (∀ a ∈ todo, ∀ b, ∃ c, atomCost rels b a = .ok c) → ∃ out, sortByCost rels n bound todo w = .ok w out ∧ todo.Perm out := by
  induction n with
  | zero =>
    intro bound todo w hl _ _
    cases todo with
    | nil => exact ⟨[], by simp [sortByCost], .refl _⟩
    | cons => simp at hl
  | succ n ih =>
    intro bound todo w hl hat hc
    cases todo with
    | nil => exact ⟨[], by simp [sortByCost], .refl _⟩
    | cons a as =>
      have hall : ∀ xs : List Value, (∀ x ∈ xs, ∃ c, atomCost rels bound x = .ok c) → ∃ cs, costAll rels bound xs = .ok cs := by
        intro xs
        induction xs with
        | nil => intro _; exact ⟨[], rfl⟩
        | cons x xs ihx =>
          intro hx
          obtain ⟨c, h1⟩ := hx x (by simp)
          obtain ⟨cs, h2⟩ := ihx fun y hy => hx y (by simp [hy])
          exact ⟨_, by simp only [costAll, h1, h2]; rfl⟩
      obtain ⟨cs, hcs⟩ := hall (a :: as) fun x hx => hc x hx bound
      obtain ⟨hmap, _⟩ := costAll_ok hcs
      have hperm := (sortCosts_perm cs).map Prod.fst
      rw [hmap] at hperm
      have hw : (M.lift (.ok cs) : M W _) w = .ok w cs := rfl
      cases hs : (sortCosts cs).map Prod.fst with
      | nil => rw [hs] at hperm; exact absurd (List.perm_nil.1 hperm.symm) (by simp)
      | cons first rest =>
        rw [hs] at hperm
        have hfirst : sortArguments (sortByCost rels n bound) first = pure first := by
          rw [sortArguments, if_neg]
          intro h
          obtain ⟨x, hx, hx'⟩ := List.any_eq_true.1 h
          exact hat first (hperm.mem_iff.1 (by simp)) x hx (isAtomList_iff.1 hx')
        obtain ⟨out, ho, hp⟩ := ih (bound ++ varsOf first) rest w (by have := hperm.length_eq; simp at this hl; omega)
          (fun x hx => hat x (hperm.mem_iff.1 (by simp [hx]))) (fun x hx => hc x (hperm.mem_iff.1 (by simp [hx])))
        refine ⟨first :: out, ?_, hperm.symm.trans (hp.cons first)⟩
        rw [sortByCost, M.bind_run, hcs, hw]
        simp only [hs, hfirst]
        rw [M.bind_run, M.pure_run]
        simp only
        rw [M.bind_run, ho]
        rfl

/-! Example: two relations, one without known size; the atom with the smallest relation is first, its variable makes the second cheaper. -/

/-- Relations of the example. -/
def costRels : List (Relation Unit) :=
  [⟨"country", [], fun _ _ => pure (.rows []), none, some 100, [some 100]⟩,
   ⟨"borders", [], fun _ _ => pure (.rows []), none, some 900, [some 100, some 100]⟩,
   ⟨"city", [], fun _ _ => pure (.rows []), none, some 200, [some 200, some 50]⟩]

/-- The module of the example. -/
def costModule : Module Unit := ⟨fun _ p => costRels.find? fun r => r.predicate == p⟩

/-- A query with a nested list of atoms. -/
def costQuery : List Value :=
  [.tuple [.str "borders", .var "X", .var "Y"], .tuple [.str "not", .list [.tuple [.str "city", .var "C", .var "X"], .tuple [.str "country", .var "X"]]],
    .tuple [.str "city", .var "D", .var "Y"], .tuple [.str "country", .var "X"]]

theorem costQuery_sorted : sortComposition [costModule] costQuery () = .ok ()
    [.tuple [.str "not", .list [.tuple [.str "country", .var "X"], .tuple [.str "city", .var "C", .var "X"]]],
      .tuple [.str "country", .var "X"], .tuple [.str "borders", .var "X", .var "Y"], .tuple [.str "city", .var "D", .var "Y"]] := by
  decide +kernel

example := C46_greedy costQuery_sorted
example := C46_permutation costQuery_sorted

/-- An atom with too few arguments, inside a negation. -/
theorem costQuery_raises : sortComposition [costModule] [.tuple [.str "not", .list [.tuple [.str "city", .var "C"]]]] () =
    .err () (.exception "Number of argument sizes doesn't match that of relation") := by decide +kernel

example := C46_raises costQuery_raises

end

end Verif

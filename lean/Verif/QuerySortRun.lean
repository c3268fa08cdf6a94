import Verif.QuerySort
import Verif.Props.SortByCost

/-!
# Sorting by cost moves facts to the front
-/

namespace Verif

variable {W : Type}

/-- The predicate that a part is written with. -/
def Form.pred : Form → String
  | .atom p _ => p
  | .neg _ => "not"
  | .thereIsNo _ => "none"
  | .thereIs _ => "scoped"
  | .exactly _ _ => "det_equals"
  | .moreThan _ _ => "det_greater_than"
  | .fewerThan _ _ => "det_less_than"
  | .all _ _ _ => "all"
  | .count _ _ => "count"
  | .either _ => "$disjunction"
  | .equals _ _ => "equals"
  | .greater _ _ => "greater_than"
  | .less _ _ => "less_than"
  | .assign _ _ => "let"
  | .times _ _ _ => "multiply"

/-- All relations of the predicate have a size. -/
def sized (rels : String → List (Relation W)) (p : String) : Bool := (rels p).all fun r => r.relationSize.isSome

/-- Facts and alternatives whose relations have sizes. -/
def Form.early (rels : String → List (Relation W)) (f : Form) : Bool := (f.isFact || f.isEither) && sized rels f.pred

theorem early_ok (rels : String → List (Relation W)) : EarlyOk (Form.early rels) := by
  intro f h
  simp only [Form.early, Bool.and_eq_true, Bool.or_eq_true] at h
  exact h.1

theorem toValue_pred (f : Form) : ∃ args, f.toValue = .tuple (.str f.pred :: args) := by
  cases f <;> exact ⟨_, rfl⟩

theorem formValues_eq (q : List Form) : formValues q = q.map Form.toValue := by
  induction q with
  | nil => rfl
  | cons f fs ih => rw [formValues, ih]; rfl

/-- Relations with a size are smaller than what counts as infinite; the relations of the core module have none. -/
structure SizesFit (rels : String → List (Relation W)) : Prop where
  small : ∀ p, ∀ r ∈ rels p, ∀ s, r.relationSize = some s → s < 1000000000000
  core : ∀ f : Form, f.isFact = false → f.isEither = false → sized rels f.pred = false

theorem relationCost_le {bound : List String} {args : List Value} {r : Relation W} {c : Rat} {s : Nat} (h : RelationCost bound args r c)
    (hs : r.relationSize = some s) (hlt : s < 1000000000000) : c < 1000000000000 := by
  cases h with
  | unknown h => rw [hs] at h; cases h
  | known h1 _ h3 h4 =>
    rw [hs] at h1; cases h1
    apply Rat.not_le.1
    intro hc
    have hk : (1 : Rat) ≤ ((boundSizes bound args r.argumentSizes).prod : Rat) := by
      have : 1 ≤ (boundSizes bound args r.argumentSizes).prod := Nat.one_le_iff_ne_zero.2 h3
      exact_mod_cast this
    have h5 : c * 1 ≤ c * ((boundSizes bound args r.argumentSizes).prod : Rat) :=
      Rat.mul_le_mul_of_nonneg_left hk (Rat.le_trans (by decide) hc)
    rw [h4, Rat.mul_one] at h5
    have h6 : ((1000000000000 : Nat) : Rat) ≤ (s : Rat) := Rat.le_trans hc h5
    exact absurd (by exact_mod_cast h6 : 1000000000000 ≤ s) (by omega)

theorem cost_early {rels : String → List (Relation W)} (hs : SizesFit rels) {bound : List String} {f : Form} {c : Rat}
    (h : IsCost rels bound f.toValue c) (he : sized rels f.pred = true) : c < 1000000000000 := by
  obtain ⟨args, hv⟩ := toValue_pred f
  rw [hv] at h
  cases h with
  | noRelations _ _ => decide
  | largest h1 h2 h3 _ =>
    simp only [elements, List.cons.injEq, Value.str.injEq] at h1
    obtain ⟨rfl, rfl⟩ := h1
    have := List.all_eq_true.1 he _ h2
    obtain ⟨s, hs'⟩ := Option.isSome_iff_exists.1 this
    exact relationCost_le h3 hs' (hs.small _ _ h2 s hs')

theorem cost_late {rels : String → List (Relation W)} (hs : SizesFit rels) {bound : List String} {f : Form} {c : Rat}
    (h : IsCost rels bound f.toValue c) (he : sized rels f.pred = false) : c = 1000000000000 := by
  obtain ⟨args, hv⟩ := toValue_pred f
  rw [hv] at h
  obtain ⟨r, hr, hr'⟩ := List.all_eq_false.1 he
  have hr' : r.relationSize = none := by simpa using hr'
  cases h with
  | noRelations _ h2 => rw [h2 f.pred args rfl] at hr; simp at hr
  | largest h1 h2 h3 h4 =>
    simp only [elements, List.cons.injEq, Value.str.injEq] at h1
    obtain ⟨rfl, rfl⟩ := h1
    obtain ⟨c', hc', hle⟩ := h4 r hr
    cases hc' with
    | known h _ _ _ => rw [hr'] at h; cases h
    | unknown _ =>
      cases h3 with
      | unknown _ => rfl
      | known h5 h6 h7 h8 =>
        have := relationCost_le (RelationCost.known h5 h6 h7 h8) h5 (hs.small _ _ h2 _ h5)
        exact absurd hle (Rat.not_le.2 this)

theorem late_not_sized {rels : String → List (Relation W)} (hs : SizesFit rels) {f : Form} (h : f.early rels = false) :
    sized rels f.pred = false := by
  simp only [Form.early, Bool.and_eq_false_iff, Bool.or_eq_false_iff] at h
  rcases h with ⟨h1, h2⟩ | h
  · exact hs.core f h1 h2
  · exact h

/-! ## The stable sort, with parts of queries -/

/-- As `insertCost`. -/
def insertForm (x : Form × Rat) : List (Form × Rat) → List (Form × Rat)
  | [] => [x]
  | y :: ys => if x.2 ≤ y.2 then x :: y :: ys else y :: insertForm x ys

/-- As `sortCosts`. -/
def sortForms : List (Form × Rat) → List (Form × Rat)
  | [] => []
  | x :: xs => insertForm x (sortForms xs)

/-- The atom of a part. -/
def writePair (p : Form × Rat) : Value × Rat := (p.1.toValue, p.2)

theorem insertForm_write (x : Form × Rat) (xs : List (Form × Rat)) : insertCost (writePair x) (xs.map writePair) = (insertForm x xs).map writePair := by
  induction xs with
  | nil => rfl
  | cons y ys ih =>
    rw [List.map_cons, insertCost, insertForm]
    have : (writePair x).2 = x.2 ∧ (writePair y).2 = y.2 := ⟨rfl, rfl⟩
    rw [this.1, this.2]
    split
    · rfl
    · rw [ih]; rfl

theorem sortForms_write (xs : List (Form × Rat)) : sortCosts (xs.map writePair) = (sortForms xs).map writePair := by
  induction xs with
  | nil => rfl
  | cons x xs ih => rw [List.map_cons, sortCosts, sortForms, ih, insertForm_write]

theorem insertForm_perm (x : Form × Rat) (xs : List (Form × Rat)) : (insertForm x xs).Perm (x :: xs) := by
  induction xs with
  | nil => exact .refl _
  | cons y ys ih =>
    rw [insertForm]
    split
    · exact .refl _
    · exact (ih.cons y).trans (.swap x y ys)

theorem sortForms_perm (xs : List (Form × Rat)) : (sortForms xs).Perm xs := by
  induction xs with
  | nil => exact .refl _
  | cons x xs ih => exact (insertForm_perm x _).trans (ih.cons x)

/-- The early parts are cheaper than `m`, the others cost `m`. -/
def Costed (early : Form → Bool) (m : Rat) (ps : List (Form × Rat)) : Prop :=
  ∀ p ∈ ps, (early p.1 = true → p.2 < m) ∧ (early p.1 = false → p.2 = m)

theorem insertForm_late {early : Form → Bool} {m : Rat} {x : Form × Rat} {xs : List (Form × Rat)} (hx : Costed early m [x])
    (hxs : Costed early m xs) :
    (insertForm x xs).filter (fun p => !early p.1) = (x :: xs).filter fun p => !early p.1 := by
  induction xs with
  | nil => rfl
  | cons y ys ih =>
    rw [insertForm]
    split
    · rfl
    · rename_i hle
      have ih := ih fun p hp => hxs p (by simp [hp])
      rw [List.filter_cons (x := y), ih]
      cases hex : early x.1 with
      | true => simp [List.filter_cons, hex]
      | false =>
        have h1 := (hx x (by simp)).2 hex
        have hey : early y.1 = true := by
          cases hey : early y.1 with
          | true => rfl
          | false =>
            have h2 := (hxs y (by simp)).2 hey
            exact absurd (by rw [h1, h2]; exact Rat.le_refl) hle
        simp [hex, hey]

theorem sortForms_late {early : Form → Bool} {m : Rat} {xs : List (Form × Rat)} (hxs : Costed early m xs) :
    (sortForms xs).filter (fun p => !early p.1) = xs.filter fun p => !early p.1 := by
  induction xs with
  | nil => rfl
  | cons x xs ih =>
    have h1 : Costed early m xs := fun p hp => hxs p (by simp [hp])
    have h2 : Costed early m (sortForms xs) := fun p hp => h1 p ((sortForms_perm xs).mem_iff.1 hp)
    rw [sortForms, insertForm_late (fun p hp => hxs p (by simp at hp; simp [hp])) h2, List.filter_cons, List.filter_cons, ih h1]

theorem costAll_forms {rels : String → List (Relation W)} (hs : SizesFit rels) {bound : List String} {q : List Form} {cs : List (Value × Rat)}
    (h : costAll rels bound (formValues q) = .ok cs) :
    ∃ ps, cs = ps.map writePair ∧ ps.map Prod.fst = q ∧ Costed (Form.early rels) 1000000000000 ps := by
  induction q generalizing cs with
  | nil => simp [formValues, costAll] at h; subst h; exact ⟨[], rfl, rfl, by simp [Costed]⟩
  | cons f fs ih =>
    rw [formValues, costAll] at h
    cases h1 : atomCost rels bound f.toValue with
    | error e => simp [h1] at h
    | ok c =>
      cases h2 : costAll rels bound (formValues fs) with
      | error e => simp [h1, h2] at h
      | ok cs' =>
        simp only [h1, h2, Except.ok.injEq] at h
        subst h
        obtain ⟨ps, rfl, rfl, hall⟩ := ih h2
        refine ⟨(f, c) :: ps, rfl, rfl, ?_⟩
        intro p hp
        rcases List.mem_cons.1 hp with rfl | hp
        · refine ⟨fun he => cost_early hs (atomCost_ok h1) ?_, fun he => cost_late hs (atomCost_ok h1) (late_not_sized hs he)⟩
          simp only [Form.early, Bool.and_eq_true] at he
          exact he.2
        · exact hall p hp

/-! ## Arguments -/

theorem not_atomList_alt (qs : List (List Form)) : isAtomList (.list (altValues qs)) = false := by
  cases qs with
  | nil => rfl
  | cons q qs => rw [altValues]; rfl

theorem isAtomList_cons (f : Form) (fs : List Form) : isAtomList (.list (formValues (f :: fs))) = true := by
  obtain ⟨args, h⟩ := toValue_pred f
  rw [formValues, h]; rfl

theorem Simple.not_atomList {v : Value} (h : Simple v) : isAtomList v = false := by
  cases v <;> first | rfl | exact absurd h (by simp [Simple])

theorem Adv.nil {early : Form → Bool} : Adv early [] [] := .mk (e := []) (l := []) (.refl _) rfl .nil rfl

theorem sortArgs_list {early : Form → Bool} {sort : List Value → M W (List Value)} {w w' : W} {q : List Form} {as out : List Value}
    (hsort : ∀ w' ys, sort (formValues q) w = .ok w' ys → w' = w ∧ ∃ q', ys = formValues q' ∧ Adv early q q')
    (h : sortArgs sort (.list (formValues q) :: as) w = .ok w' out) :
    ∃ q' rest, Adv early q q' ∧ out = .list (formValues q') :: rest ∧ sortArgs sort as w = .ok w' rest := by
  rw [sortArgs] at h
  split at h
  · obtain ⟨w1, ys, h1, h⟩ := M.bind_eq_ok.1 h
    obtain ⟨rfl, q', rfl, h2⟩ := hsort _ _ (by simpa [elements] using h1)
    obtain ⟨w2, rest, h3, h⟩ := M.bind_eq_ok.1 h
    obtain ⟨rfl, rfl⟩ := M.pure_eq_ok.1 h
    exact ⟨q', rest, h2, rfl, h3⟩
  · rename_i hn
    cases q with
    | cons f fs => rw [isAtomList_cons] at hn; exact absurd rfl hn
    | nil =>
      obtain ⟨w2, rest, h3, h⟩ := M.bind_eq_ok.1 h
      obtain ⟨rfl, rfl⟩ := M.pure_eq_ok.1 h
      exact ⟨[], rest, Adv.nil, rfl, h3⟩

theorem sortArgs_other {sort : List Value → M W (List Value)} {w w' : W} {v : Value} (hv : isAtomList v = false) {as out : List Value}
    (h : sortArgs sort (v :: as) w = .ok w' out) : ∃ rest, out = v :: rest ∧ sortArgs sort as w = .ok w' rest := by
  rw [sortArgs, hv] at h
  simp only [Bool.false_eq_true, if_false] at h
  obtain ⟨w2, rest, h3, h⟩ := M.bind_eq_ok.1 h
  obtain ⟨rfl, rfl⟩ := M.pure_eq_ok.1 h
  exact ⟨rest, rfl, h3⟩

theorem sortArgs_nil {sort : List Value → M W (List Value)} {w w' : W} {out : List Value} (h : sortArgs sort [] w = .ok w' out) :
    w' = w ∧ out = [] := by
  simp [sortArgs] at h
  exact ⟨h.1.symm, h.2⟩

/-- Sorting the arguments of a part changes the queries in it. -/
theorem sortArguments_form {early : Form → Bool} {sort : List Value → M W (List Value)} {w w' : W} {f : Form} (hf : f.Simple) {out : Value}
    (hsort : ∀ q, FormsSimple q → ∀ w' ys, sort (formValues q) w = .ok w' ys → w' = w ∧ ∃ q', ys = formValues q' ∧ Adv early q q')
    (h : sortArguments sort f.toValue w = .ok w' out) :
    w' = w ∧ ∃ g, out = g.toValue ∧ AdvForm early f g ∧ (f.isFact = true ∨ f.isEither = true → g = f) := by
  rw [sortArguments] at h
  split at h
  · rename_i hany
    obtain ⟨w1, ts, h1, h⟩ := M.bind_eq_ok.1 h
    obtain ⟨rfl, rfl⟩ := M.pure_eq_ok.1 h
    have hstr : ∀ s, isAtomList (.str s) = false := fun _ => rfl
    have hvar : ∀ s, isAtomList (.var s) = false := fun _ => rfl
    cases f with
    | atom p args =>
      rw [Form.Simple] at hf
      obtain ⟨x, hx, hx'⟩ := List.any_eq_true.1 hany
      simp only [Form.toValue, elements, List.mem_cons] at hx
      rcases hx with rfl | hx
      · simp [hstr] at hx'
      · rw [(hf.2 x hx).not_atomList] at hx'; cases hx'
    | neg q =>
      rw [Form.Simple] at hf
      simp only [Form.toValue, elements] at h1
      obtain ⟨r1, rfl, h1'⟩ := sortArgs_other (hstr _) h1
      obtain ⟨q', r2, ha, rfl, h1''⟩ := sortArgs_list (hsort q hf) h1'
      obtain ⟨rfl, rfl⟩ := sortArgs_nil h1''
      exact ⟨rfl, .neg q', rfl, .neg ha, by simp [Form.isFact, Form.isEither]⟩
    | thereIsNo q =>
      rw [Form.Simple] at hf
      simp only [Form.toValue, elements] at h1
      obtain ⟨r1, rfl, h1'⟩ := sortArgs_other (hstr _) h1
      obtain ⟨q', r2, ha, rfl, h1''⟩ := sortArgs_list (hsort q hf) h1'
      obtain ⟨rfl, rfl⟩ := sortArgs_nil h1''
      exact ⟨rfl, .thereIsNo q', rfl, .thereIsNo ha, by simp [Form.isFact, Form.isEither]⟩
    | thereIs q =>
      rw [Form.Simple] at hf
      simp only [Form.toValue, elements] at h1
      obtain ⟨r1, rfl, h1'⟩ := sortArgs_other (hstr _) h1
      obtain ⟨q', r2, ha, rfl, h1''⟩ := sortArgs_list (hsort q hf) h1'
      obtain ⟨rfl, rfl⟩ := sortArgs_nil h1''
      exact ⟨rfl, .thereIs q', rfl, .thereIs ha, by simp [Form.isFact, Form.isEither]⟩
    | exactly q n =>
      rw [Form.Simple] at hf
      simp only [Form.toValue, elements] at h1
      obtain ⟨r1, rfl, h1'⟩ := sortArgs_other (hstr _) h1
      obtain ⟨q', r2, ha, rfl, h1''⟩ := sortArgs_list (hsort q hf.1) h1'
      obtain ⟨r3, rfl, h1'''⟩ := sortArgs_other hf.2.not_atomList h1''
      obtain ⟨rfl, rfl⟩ := sortArgs_nil h1'''
      exact ⟨rfl, .exactly q' n, rfl, .exactly ha, by simp [Form.isFact, Form.isEither]⟩
    | moreThan q n =>
      rw [Form.Simple] at hf
      simp only [Form.toValue, elements] at h1
      obtain ⟨r1, rfl, h1'⟩ := sortArgs_other (hstr _) h1
      obtain ⟨q', r2, ha, rfl, h1''⟩ := sortArgs_list (hsort q hf.1) h1'
      obtain ⟨r3, rfl, h1'''⟩ := sortArgs_other hf.2.not_atomList h1''
      obtain ⟨rfl, rfl⟩ := sortArgs_nil h1'''
      exact ⟨rfl, .moreThan q' n, rfl, .moreThan ha, by simp [Form.isFact, Form.isEither]⟩
    | fewerThan q n =>
      rw [Form.Simple] at hf
      simp only [Form.toValue, elements] at h1
      obtain ⟨r1, rfl, h1'⟩ := sortArgs_other (hstr _) h1
      obtain ⟨q', r2, ha, rfl, h1''⟩ := sortArgs_list (hsort q hf.1) h1'
      obtain ⟨r3, rfl, h1'''⟩ := sortArgs_other hf.2.not_atomList h1''
      obtain ⟨rfl, rfl⟩ := sortArgs_nil h1'''
      exact ⟨rfl, .fewerThan q' n, rfl, .fewerThan ha, by simp [Form.isFact, Form.isEither]⟩
    | all x r q =>
      rw [Form.Simple] at hf
      simp only [Form.toValue, elements] at h1
      obtain ⟨r1, rfl, h1'⟩ := sortArgs_other (hstr _) h1
      obtain ⟨r1, rfl, h1''⟩ := sortArgs_other (hvar _) h1'
      obtain ⟨r', r2, ha, rfl, h1'''⟩ := sortArgs_list (hsort r hf.1) h1''
      obtain ⟨q', r2, hb, rfl, h1''''⟩ := sortArgs_list (hsort q hf.2) h1'''
      obtain ⟨rfl, rfl⟩ := sortArgs_nil h1''''
      exact ⟨rfl, .all x r' q', rfl, .all ha hb, by simp [Form.isFact, Form.isEither]⟩
    | count x q =>
      rw [Form.Simple] at hf
      simp only [Form.toValue, elements] at h1
      obtain ⟨r1, rfl, h1'⟩ := sortArgs_other (hstr _) h1
      obtain ⟨r1, rfl, h1''⟩ := sortArgs_other (hvar _) h1'
      obtain ⟨q', r2, ha, rfl, h1'''⟩ := sortArgs_list (hsort q hf) h1''
      obtain ⟨rfl, rfl⟩ := sortArgs_nil h1'''
      exact ⟨rfl, .count x q', rfl, .count ha, by simp [Form.isFact, Form.isEither]⟩
    | either qs =>
      simp [Form.toValue, elements, not_atomList_alt, hstr] at hany
    | equals a c =>
      rw [Form.Simple] at hf
      simp [Form.toValue, elements, hf.1.not_atomList, hf.2.not_atomList, hstr] at hany
    | greater a c =>
      rw [Form.Simple] at hf
      simp [Form.toValue, elements, hf.1.not_atomList, hf.2.not_atomList, hstr] at hany
    | less a c =>
      rw [Form.Simple] at hf
      simp [Form.toValue, elements, hf.1.not_atomList, hf.2.not_atomList, hstr] at hany
    | assign x v =>
      rw [Form.Simple] at hf
      simp [Form.toValue, elements, hf.not_atomList, hstr, hvar] at hany
    | times a c x =>
      rw [Form.Simple] at hf
      simp [Form.toValue, elements, hf.1.not_atomList, hf.2.not_atomList, hstr, hvar] at hany
  · obtain ⟨rfl, rfl⟩ := M.pure_eq_ok.1 h
    exact ⟨rfl, f, rfl, .same f, fun _ => rfl⟩

theorem formsSimple_iff {q : List Form} : FormsSimple q ↔ ∀ f ∈ q, f.Simple := by
  induction q with
  | nil => simp [FormsSimple]
  | cons f fs ih => simp [FormsSimple, ih]

/-- Sorting moves early parts to the front and keeps the order of the others. -/
theorem sortByCost_forms {rels : String → List (Relation W)} (hs : SizesFit rels) (n : Nat) : ∀ (bound : List String) (q : List Form) (w w' : W)
    (out : List Value), FormsSimple q → sortByCost rels n bound (formValues q) w = .ok w' out →
    w' = w ∧ ∃ q', out = formValues q' ∧ Adv (Form.early rels) q q' := by
  induction n with
  | zero =>
    intro bound q w w' out hq h
    cases q with
    | nil =>
      rw [formValues, sortByCost] at h
      obtain ⟨rfl, rfl⟩ := M.pure_eq_ok.1 h
      exact ⟨rfl, [], rfl, Adv.nil⟩
    | cons f fs => rw [formValues, sortByCost] at h; cases h
  | succ n ih =>
    intro bound q w w' out hq h
    cases q with
    | nil =>
      rw [formValues, sortByCost] at h
      obtain ⟨rfl, rfl⟩ := M.pure_eq_ok.1 h
      exact ⟨rfl, [], rfl, Adv.nil⟩
    | cons f fs =>
      rw [formValues, sortByCost] at h
      obtain ⟨w1, cs, h1, h⟩ := M.bind_eq_ok.1 h
      obtain ⟨rfl, hcost⟩ := M.lift_eq_ok.1 h1
      rw [← formValues] at hcost
      obtain ⟨ps, rfl, hps, hc⟩ := costAll_forms hs hcost
      have hmap : (sortCosts (ps.map writePair)).map Prod.fst = formValues ((sortForms ps).map Prod.fst) := by
        rw [sortForms_write, formValues_eq, List.map_map, List.map_map]; rfl
      rw [hmap] at h
      have hperm : ((sortForms ps).map Prod.fst).Perm (f :: fs) := hps ▸ (sortForms_perm ps).map Prod.fst
      have hlate : ((sortForms ps).map Prod.fst).filter (fun f => !f.early rels) = (f :: fs).filter fun f => !f.early rels := by
        rw [← hps, List.filter_map, List.filter_map]
        have := sortForms_late hc
        simp only [Function.comp_def]
        rw [this]
      have hhead : ∀ p rest, sortForms ps = p :: rest → p.1.early rels = false → ∀ x ∈ rest, x.1.early rels = false := by
        intro p rest he hp x hx
        have h2 := sortCosts_head (ps.map writePair) (writePair p) (rest.map writePair) (by rw [sortForms_write, he]; rfl) (writePair x)
          (List.mem_map.2 ⟨x, hx, rfl⟩)
        have hp' := (hc p ((sortForms_perm ps).mem_iff.1 (by rw [he]; simp))).2 hp
        cases hxe : x.1.early rels with
        | false => rfl
        | true =>
          have h3 := (hc x ((sortForms_perm ps).mem_iff.1 (by rw [he]; simp [hx]))).1 hxe
          simp only [writePair] at h2
          rw [hp'] at h2
          exact absurd h2 (Rat.not_le.2 h3)
      cases hsf : sortForms ps with
      | nil =>
        rw [hsf] at hperm
        exact absurd hperm.length_eq (by simp)
      | cons p rest =>
        rw [hsf] at h hperm hlate
        simp only [List.map_cons, formValues] at h
        obtain ⟨w2, first', h2, h⟩ := M.bind_eq_ok.1 h
        have hall := formsSimple_iff.1 hq
        have hsort : ∀ q, FormsSimple q → ∀ w' ys, sortByCost rels n bound (formValues q) w = .ok w' ys →
            w' = w ∧ ∃ q', ys = formValues q' ∧ Adv (Form.early rels) q q' := fun q hq w' ys h => ih bound q w w' ys hq h
        obtain ⟨rfl, g, rfl, hg, hgf⟩ := sortArguments_form (hall p.1 (hperm.mem_iff.1 (by simp))) hsort h2
        obtain ⟨w3, rest', h3, h⟩ := M.bind_eq_ok.1 h
        obtain ⟨rfl, rfl⟩ := M.pure_eq_ok.1 h
        obtain ⟨rfl, q2, rfl, ha⟩ := ih _ (rest.map Prod.fst) _ _ _
          (formsSimple_iff.2 fun f hf => hall f (hperm.mem_iff.1 (by simp only [List.map_cons, List.mem_cons]; exact .inr hf))) h3
        refine ⟨rfl, g :: q2, rfl, ?_⟩
        obtain ⟨e1, e2, e3, e4⟩ := ha
        rename_i e late l
        cases hp : p.1.early rels with
        | true =>
          have : g = p.1 := hgf (early_ok rels _ hp)
          subst this
          refine .mk (e := p.1 :: e) (l := l) ?_ ?_ e3 (by rw [e4]; rfl)
          · refine (e1.cons p.1).trans ?_
            have := hperm.filter (Form.early rels)
            rw [List.map_cons, List.filter_cons, if_pos hp] at this
            exact this
          · rw [e2, ← hlate, List.map_cons, List.filter_cons]
            simp [hp]
        | false =>
          have hr := hhead p rest hsf hp
          have hr' : ∀ x ∈ rest.map Prod.fst, x.early rels = false := by
            intro x hx
            obtain ⟨y, hy, rfl⟩ := List.mem_map.1 hx
            exact hr y hy
          have hee : e = [] := by
            have : (rest.map Prod.fst).filter (Form.early rels) = [] := List.filter_eq_nil_iff.2 fun x hx => by simp [hr' x hx]
            rw [this] at e1
            exact e1.eq_nil
          subst hee
          have hq : p.1 :: rest.map Prod.fst = f :: fs := by
            have h4 : (p.1 :: rest.map Prod.fst).filter (fun f => !f.early rels) = p.1 :: rest.map Prod.fst :=
              List.filter_eq_self.2 fun x hx => by
                rcases List.mem_cons.1 hx with rfl | hx
                · simp [hp]
                · simp [hr' x hx]
            have h5 : (f :: fs).filter (fun f => !f.early rels) = f :: fs := by
              refine List.filter_eq_self.2 fun x hx => ?_
              have := hperm.symm.mem_iff.1 hx
              simp only [List.map_cons, List.mem_cons] at this
              rcases this with rfl | hx
              · simp [hp]
              · simp [hr' x (by simpa using hx)]
            rw [List.map_cons, h4, h5] at hlate
            exact hlate
          have hl : late = rest.map Prod.fst := by
            rw [e2]
            exact List.filter_eq_self.2 fun x hx => by simp [hr' x hx]
          rw [← hq, ← hl]
          refine .mk (e := []) (l := g :: l) (late := p.1 :: late) ?_ ?_ (.cons hg e3) (by rw [e4]; rfl)
          · have : (p.1 :: late).filter (Form.early rels) = [] := List.filter_eq_nil_iff.2 fun x hx => by
              rcases List.mem_cons.1 hx with rfl | hx
              · simp [hp]
              · simp [hr' x (hl ▸ hx)]
            rw [this]
          · refine (List.filter_eq_self.2 fun x hx => ?_).symm
            rcases List.mem_cons.1 hx with rfl | hx
            · simp [hp]
            · simp [hr' x (hl ▸ hx)]

end Verif

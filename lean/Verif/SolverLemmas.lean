import Verif.Solver

/-!
# Helper lemmas about the solver
-/

namespace Verif

variable {W : Type}

/-- `b'` contains everything `b` contains. -/
def Extends (b b' : Binding) : Prop := ∀ k v, b.get k = some v → b'.get k = some v

theorem Extends.refl (b : Binding) : Extends b b := fun _ _ h => h

theorem Extends.trans {a b c : Binding} (h1 : Extends a b) (h2 : Extends b c) : Extends a c :=
  fun k v h => h2 k v (h1 k v h)

theorem Extends.has {a b : Binding} (h : Extends a b) {k : String} (hk : a.has k = true) : b.has k = true := by
  rw [Dict.has_iff] at *
  obtain ⟨v, hv⟩ := hk
  exact ⟨v, h k v hv⟩

/-- Same entries: Python equality of dictionaries. -/
def SameDict (b b' : Binding) : Prop := ∀ k, b.get k = b'.get k

theorem SameDict.refl (b : Binding) : SameDict b b := fun _ => rfl
theorem SameDict.symm {a b : Binding} (h : SameDict a b) : SameDict b a := fun k => (h k).symm
theorem SameDict.trans {a b c : Binding} (h1 : SameDict a b) (h2 : SameDict b c) : SameDict a c :=
  fun k => (h1 k).trans (h2 k)

/-! ## extendRow -/

theorem extendRow_cons_var (b : Binding) (n : String) (args row : List Value) (result : Binding) (c : Bool) :
    extendRow b (.var n :: args) row result c =
      if b.has n then extendRow b args row.tail result c
      else match row with
        | [] => .error .indexError
        | v :: row' => extendRow b args row' (result.set n v)
            (match result.get n with
              | some v' => c || decide (v' ≠ v)
              | none => c) := by
  cases row <;> simp only [extendRow] <;> rfl

theorem extendRow_cons_const (b : Binding) (a : Value) (ha : a.isVar = false) (args row : List Value)
    (result : Binding) (c : Bool) :
    extendRow b (a :: args) row result c =
      match row with
      | [] => .error .indexError
      | v :: row' => extendRow b args row' result (c || (decide (v ≠ .none) && decide (a ≠ v))) := by
  cases a <;> first | (simp [Value.isVar] at ha; done) | (cases row <;> simp only [extendRow])

theorem extendRow_extends {b : Binding} {args row : List Value} {result result' : Binding} {c c' : Bool}
    (h : extendRow b args row result c = .ok (result', c')) (h0 : Extends b result) : Extends b result' := by
  induction args generalizing row result c with
  | nil => simp only [extendRow, Except.ok.injEq, Prod.mk.injEq] at h; exact h.1 ▸ h0
  | cons a args ih =>
    cases ha : a.isVar with
    | false =>
      rw [extendRow_cons_const b a ha] at h
      cases row with
      | nil => simp at h
      | cons v row => exact ih h h0
    | true =>
      cases a <;> simp only [Value.isVar, Bool.false_eq_true] at ha
      rename_i n
      rw [extendRow_cons_var] at h
      split at h
      · exact ih h h0
      · rename_i hn
        cases row with
        | nil => simp at h
        | cons v row =>
          refine ih h ?_
          intro k w hk
          rw [Dict.get_set]
          split
          · rename_i e; subst e; exact absurd ((Dict.has_iff b n).2 ⟨w, hk⟩) hn
          · exact h0 k w hk

theorem extendRow_keeps {b : Binding} {args row : List Value} {result result' : Binding} {c c' : Bool}
    (h : extendRow b args row result c = .ok (result', c')) {k : String} (hk : result.has k = true) :
    result'.has k = true := by
  induction args generalizing row result c with
  | nil => simp only [extendRow, Except.ok.injEq, Prod.mk.injEq] at h; exact h.1 ▸ hk
  | cons a args ih =>
    cases ha : a.isVar with
    | false =>
      rw [extendRow_cons_const b a ha] at h
      cases row with
      | nil => simp at h
      | cons v row => exact ih h hk
    | true =>
      cases a <;> simp only [Value.isVar, Bool.false_eq_true] at ha
      rename_i n
      rw [extendRow_cons_var] at h
      split at h
      · exact ih h hk
      · cases row with
        | nil => simp at h
        | cons v row =>
          refine ih h ?_
          rw [Dict.has_iff] at *
          rw [Dict.get_set]
          split
          · exact ⟨_, rfl⟩
          · exact hk

theorem extendRow_binds {b : Binding} {args row : List Value} {result result' : Binding} {c c' : Bool}
    (h : extendRow b args row result c = .ok (result', c')) (h0 : Extends b result)
    {x : String} (hx : Value.var x ∈ args) : result'.has x = true := by
  induction args generalizing row result c with
  | nil => simp at hx
  | cons a args ih =>
    cases ha : a.isVar with
    | false =>
      rw [extendRow_cons_const b a ha] at h
      have hx' : Value.var x ∈ args := by
        rcases List.mem_cons.1 hx with e | e
        · subst e; simp [Value.isVar] at ha
        · exact e
      cases row with
      | nil => simp at h
      | cons v row => exact ih h h0 hx'
    | true =>
      cases a <;> simp only [Value.isVar, Bool.false_eq_true] at ha
      rename_i n
      rw [extendRow_cons_var] at h
      split at h
      · rename_i hn
        rcases List.mem_cons.1 hx with e | e
        · cases e
          exact extendRow_keeps h (h0.has hn)
        · exact ih h h0 e
      · rename_i hn
        cases row with
        | nil => simp at h
        | cons v row =>
          rcases List.mem_cons.1 hx with e | e
          · cases e
            exact extendRow_keeps h (by rw [Dict.has_iff]; exact ⟨v, by simp⟩)
          · refine ih h ?_ e
            intro k w hk
            rw [Dict.get_set]
            split
            · rename_i e; subst e; exact absurd ((Dict.has_iff b n).2 ⟨w, hk⟩) hn
            · exact h0 k w hk

theorem createResults_mem {b : Binding} {args : List Value} {rows : List (List Value)} {bs : List Binding}
    (h : createResults b args rows = .ok bs) {b' : Binding} :
    b' ∈ bs ↔ ∃ row ∈ rows, extendRow b args row b false = .ok (b', false) := by
  induction rows generalizing bs with
  | nil => simp only [createResults, Except.ok.injEq] at h; subst h; simp
  | cons row rows ih =>
    simp only [createResults] at h
    split at h
    · simp at h
    · rename_i result conflict hrow
      split at h
      · simp at h
      · rename_i rest hrest
        simp only [Except.ok.injEq] at h
        subst h
        have ih := ih hrest
        cases conflict
        · simp only [Bool.false_eq_true, if_false, List.mem_cons, exists_eq_or_imp, ih, hrow,
            Except.ok.injEq, Prod.mk.injEq, and_true]
          constructor
          · rintro (e | e)
            · exact .inl e.symm
            · exact .inr e
          · rintro (e | e)
            · exact .inl e.symm
            · exact .inr e
        · simp only [if_true, ih, List.mem_cons, exists_eq_or_imp, hrow, Except.ok.injEq, Prod.mk.injEq,
            Bool.true_eq_false, and_false, false_or]

/-! ## addNew / collect -/

theorem mem_addNew {acc : List Binding} {r b : Binding} (h : b ∈ addNew acc r) : b ∈ acc ∨ b = r := by
  unfold addNew at h
  split at h
  · exact .inl h
  · simpa using h

theorem mem_foldl_addNew {rs acc : List Binding} {b : Binding} (h : b ∈ rs.foldl addNew acc) :
    b ∈ acc ∨ b ∈ rs := by
  induction rs generalizing acc with
  | nil => exact .inl h
  | cons r rs ih =>
    rcases ih h with h | h
    · rcases mem_addNew h with h | h
      · exact .inl h
      · exact .inr (by simp [h])
    · exact .inr (List.mem_cons_of_mem _ h)

theorem mem_addNew_of_mem {acc : List Binding} {r b : Binding} (h : b ∈ acc) : b ∈ addNew acc r := by
  unfold addNew
  split
  · exact h
  · exact List.mem_append_left _ h

theorem mem_foldl_addNew_of_mem {rs acc : List Binding} {b : Binding} (h : b ∈ acc) :
    b ∈ rs.foldl addNew acc := by
  induction rs generalizing acc with
  | nil => exact h
  | cons r rs ih => exact ih (mem_addNew_of_mem h)

theorem addNew_covers (acc : List Binding) (r : Binding) : ∃ b ∈ addNew acc r, SameDict b r := by
  unfold addNew
  split
  · rename_i h
    obtain ⟨a, ha, e⟩ := List.any_eq_true.1 h
    exact ⟨a, ha, (Dict.beq_iff a r).1 e⟩
  · exact ⟨r, by simp, SameDict.refl r⟩

theorem foldl_addNew_covers {rs acc : List Binding} {r : Binding} (h : r ∈ rs) :
    ∃ b ∈ rs.foldl addNew acc, SameDict b r := by
  induction rs generalizing acc with
  | nil => simp at h
  | cons r' rs ih =>
    rcases List.mem_cons.1 h with e | e
    · subst e
      obtain ⟨b, hb, hs⟩ := addNew_covers acc r
      exact ⟨b, mem_foldl_addNew_of_mem (rs := rs) hb, hs⟩
    · exact ih e

/-- Pairwise different as Python dictionaries. -/
def NoDup (bs : List Binding) : Prop := bs.Pairwise (fun a b => ¬ SameDict a b)

theorem addNew_noDup {acc : List Binding} {r : Binding} (h : NoDup acc) : NoDup (addNew acc r) := by
  unfold addNew
  split
  · exact h
  · rename_i hn
    refine List.pairwise_append.2 ⟨h, by simp, ?_⟩
    intro a ha b hb
    simp only [List.mem_singleton] at hb
    subst hb
    intro e
    exact hn (List.any_eq_true.2 ⟨a, ha, (Dict.beq_iff a b).2 e⟩)

theorem foldl_addNew_noDup {rs acc : List Binding} (h : NoDup acc) : NoDup (rs.foldl addNew acc) := by
  induction rs generalizing acc with
  | nil => exact h
  | cons r rs ih => exact ih (addNew_noDup h)

theorem collect_noDup {f : Binding → M W SolOut} {bs acc : List Binding} {w w' : W} {out : List Binding}
    (h : collect f bs acc w = .ok w' (.rows out)) (hacc : NoDup acc) : NoDup out := by
  induction bs generalizing acc w with
  | nil =>
    simp only [collect, M.pure_eq_ok, SolOut.rows.injEq] at h
    exact h.2 ▸ hacc
  | cons b bs ih =>
    simp only [collect, M.bind_eq_ok] at h
    obtain ⟨w1, o, h1, h2⟩ := h
    match o with
    | .rows rs => exact ih h2 (foldl_addNew_noDup hacc)
    | .iter _ 0 => exact ih h2 hacc
    | .iter _ (_ + 1) => simp at h2

/-- Each collected binding is an old one or a result of `f` on one of the bindings (in some world). -/
theorem collect_mem {f : Binding → M W SolOut} {bs acc : List Binding} {w w' : W} {out : SolOut}
    (h : collect f bs acc w = .ok w' out) :
    ∃ rs, out = .rows rs ∧ ∀ r ∈ rs, r ∈ acc ∨ ∃ b ∈ bs, ∃ w1 w2 rs1, f b w1 = .ok w2 (.rows rs1) ∧ r ∈ rs1 := by
  induction bs generalizing acc w with
  | nil =>
    simp only [collect, M.pure_eq_ok] at h
    exact ⟨acc, h.2.symm, fun r hr => .inl hr⟩
  | cons b bs ih =>
    simp only [collect, M.bind_eq_ok] at h
    obtain ⟨w1, o, h1, h2⟩ := h
    match o with
    | .rows rs1 =>
      obtain ⟨rs, e, hrs⟩ := ih h2
      refine ⟨rs, e, fun r hr => ?_⟩
      rcases hrs r hr with h | ⟨b', hb', x⟩
      · rcases mem_foldl_addNew h with h | h
        · exact .inl h
        · exact .inr ⟨b, by simp, w, w1, rs1, h1, h⟩
      · exact .inr ⟨b', List.mem_cons_of_mem _ hb', x⟩
    | .iter _ 0 =>
      obtain ⟨rs, e, hrs⟩ := ih h2
      refine ⟨rs, e, fun r hr => ?_⟩
      rcases hrs r hr with h | ⟨b', hb', x⟩
      · exact .inl h
      · exact .inr ⟨b', List.mem_cons_of_mem _ hb', x⟩
    | .iter _ (_ + 1) => simp at h2

/-! ## solveSingle -/

theorem solveSingle_tuple (api : SolverApi W) (mods : List (Module W)) (p : String) (args : List Value) (b : Binding) :
    solveSingle api mods (.tuple (.str p :: args)) b = solveSingle.go api mods b p args := rfl

/-- The atom has the given predicate and arguments. -/
def IsAtom (a : Value) (p : String) (args : List Value) : Prop :=
  a = .tuple (.str p :: args) ∨ a = .list (.str p :: args)

theorem solveSingle_ok_isAtom {api : SolverApi W} {mods : List (Module W)} {a : Value} {b : Binding} {w w' : W}
    {out : SolOut} (h : solveSingle api mods a b w = .ok w' out) :
    ∃ p args, IsAtom a p args ∧ solveSingle.go api mods b p args w = .ok w' out := by
  unfold solveSingle at h
  split at h
  · exact ⟨_, _, .inl rfl, h⟩
  · exact ⟨_, _, .inr rfl, h⟩
  · simp at h
  · simp at h
  · simp at h

theorem resultsOf_ok {b : Binding} {args : List Value} {q : QOut} {w w' : W} {out : SolOut}
    (h : resultsOf b args q w = .ok w' out) :
    w' = w ∧ ((∃ s n, q = .iter s n ∧ out = .iter s n) ∨
      ∃ rows bs, q = .rows rows ∧ out = .rows bs ∧ createResults b args rows = .ok bs) := by
  cases q with
  | iter n =>
    simp only [resultsOf, M.pure_eq_ok] at h
    exact ⟨h.1.symm, .inl ⟨_, _, rfl, h.2.symm⟩⟩
  | rows rows =>
    cases rows with
    | nil =>
      simp only [resultsOf, M.pure_eq_ok] at h
      exact ⟨h.1.symm, .inr ⟨[], [], rfl, h.2.symm, rfl⟩⟩
    | cons r rs =>
      simp only [resultsOf] at h
      split at h
      · simp at h
      · rw [M.lift_eq_ok] at h
        refine ⟨h.1.symm, .inr ⟨r :: rs, ?_⟩⟩
        cases hc : createResults b args (r :: rs) with
        | error e => rw [hc] at h; simp [Except.map] at h
        | ok bs =>
          rw [hc] at h
          simp only [Except.map, Except.ok.injEq] at h
          exact ⟨bs, rfl, h.2.symm, rfl⟩

end Verif

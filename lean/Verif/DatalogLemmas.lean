import Verif.Datalog
import Verif.DedupLemmas
import Verif.SolverLemmas

/-!
# The solver computes the consequences of a program: lemmas
-/

namespace Verif

variable {W : Type}

/-- The assignment agrees with the binding. -/
def Agrees (σ : Assignment) (b : Binding) : Prop := ∀ x v, b.get x = some v → σ x = v

/-- All values are proper. -/
def PlainB (b : Binding) : Prop := ∀ x v, b.get x = some v → Plain v

theorem Agrees.mono {σ : Assignment} {b b' : Binding} (h : Agrees σ b') (he : Extends b b') : Agrees σ b :=
  fun x v hx => h x v (he x v hx)

/-- A row of proper values that repeats the values of the bound arguments. -/
def RowOk (b : Binding) : List Value → List Value → Prop
  | [], [] => True
  | a :: args, v :: row => Plain v ∧ (∀ x u, a = .var x → b.get x = some u → v = u) ∧ RowOk b args row
  | _, _ => False

theorem RowOk.length {b : Binding} {args row : List Value} (h : RowOk b args row) : row.length = args.length := by
  induction args generalizing row with
  | nil => cases row <;> simp_all [RowOk]
  | cons a args ih => cases row with
    | nil => simp [RowOk] at h
    | cons v row => simp [ih h.2.2]

theorem inst_const {σ : Assignment} {a : Value} (h : a.isVar = false) : inst σ a = a := by
  cases a <;> simp_all [inst, Value.isVar]

theorem extendRow_conflict {b : Binding} {args row : List Value} {result b' : Binding} {c : Bool}
    (h : extendRow b args row result true = .ok (b', c)) : c = true := by
  induction args generalizing row result with
  | nil => simp only [extendRow, Except.ok.injEq, Prod.mk.injEq] at h; exact h.2.symm
  | cons a args ih =>
    cases ha : a.isVar with
    | false =>
      rw [extendRow_cons_const b a ha] at h
      cases row with
      | nil => simp at h
      | cons v row => simp only [Bool.true_or] at h; exact ih h
    | true =>
      cases a <;> simp only [Value.isVar, Bool.false_eq_true] at ha
      rename_i n
      rw [extendRow_cons_var] at h
      split at h
      · exact ih h
      · cases row with
        | nil => simp at h
        | cons v row =>
          cases hg : result.get n <;> simp only [hg, Bool.true_or] at h <;> exact ih h

theorem extendRow_sound {b : Binding} {args row : List Value} {result b' : Binding} {c : Bool} (hok : RowOk b args row)
    (hext : Extends b result) (h : extendRow b args row result c = .ok (b', false)) :
    c = false ∧ Extends result b' ∧ (∀ x, b'.has x = true ↔ result.has x = true ∨ Value.var x ∈ args) ∧
      (PlainB result → PlainB b') ∧ ∀ σ, Agrees σ b' → args.map (inst σ) = row := by
  induction args generalizing row result c with
  | nil =>
    cases row with
    | nil =>
      simp only [extendRow, Except.ok.injEq, Prod.mk.injEq] at h
      obtain ⟨rfl, rfl⟩ := h
      exact ⟨rfl, Extends.refl _, by simp, fun h => h, by simp⟩
    | cons => simp [RowOk] at hok
  | cons a args ih =>
    cases row with
    | nil => simp [RowOk] at hok
    | cons v row =>
      obtain ⟨hp, hv, hok⟩ := hok
      cases ha : a.isVar with
      | false =>
        rw [extendRow_cons_const b a ha] at h
        obtain ⟨h1, h2, h3, h4, h5⟩ := ih hok hext h
        simp only [Bool.or_eq_false_iff, Bool.and_eq_false_iff, decide_eq_false_iff_not, ne_eq, Classical.not_not] at h1
        have hav : a = v := h1.2.resolve_left hp.1
        refine ⟨h1.1, h2, ?_, h4, fun σ hσ => ?_⟩
        · intro x; rw [h3]
          simp only [List.mem_cons]
          constructor
          · rintro (h | h)
            · exact .inl h
            · exact .inr (.inr h)
          · rintro (h | h | h)
            · exact .inl h
            · subst h; simp [Value.isVar] at ha
            · exact .inr h
        · rw [List.map_cons, h5 σ hσ, inst_const ha, hav]
      | true =>
        cases a <;> simp only [Value.isVar, Bool.false_eq_true] at ha
        rename_i n
        rw [extendRow_cons_var] at h
        split at h
        · rename_i hn
          obtain ⟨h1, h2, h3, h4, h5⟩ := ih hok hext h
          obtain ⟨u, hu⟩ := (Dict.has_iff b n).1 hn
          refine ⟨h1, h2, ?_, h4, fun σ hσ => ?_⟩
          · intro x; rw [h3]
            simp only [List.mem_cons, Value.var.injEq]
            constructor
            · rintro (h | h)
              · exact .inl h
              · exact .inr (.inr h)
            · rintro (h | h | h)
              · exact .inl h
              · subst h; exact .inl (hext.has hn)
              · exact .inr h
          · rw [List.map_cons, h5 σ hσ, hv n u rfl hu]
            simp [inst, hσ n u (h2 n u (hext n u hu))]
        · rename_i hn
          dsimp only at h
          have hext' : Extends b (result.set n v) := by
            intro k u hk
            rw [Dict.get_set]
            split
            · rename_i e; subst e; exact absurd ((Dict.has_iff b n).2 ⟨u, hk⟩) hn
            · exact hext k u hk
          obtain ⟨h1, h2, h3, h4, h5⟩ := ih hok hext' h
          have hc : c = false ∧ ∀ u, result.get n = some u → u = v := by
            cases hg : result.get n with
            | none => rw [hg] at h1; exact ⟨h1, by simp⟩
            | some u =>
              rw [hg] at h1
              simp only [Bool.or_eq_false_iff, decide_eq_false_iff_not, ne_eq, Classical.not_not] at h1
              exact ⟨h1.1, fun u' hu' => by simp at hu'; rw [← hu']; exact h1.2⟩
          refine ⟨hc.1, ?_, ?_, ?_, fun σ hσ => ?_⟩
          · intro k u hk
            refine h2 k u ?_
            rw [Dict.get_set]
            split
            · rename_i e; subst e; rw [hc.2 u hk]
            · exact hk
          · intro x; rw [h3]
            simp only [List.mem_cons, Value.var.injEq, Dict.has_iff, Dict.get_set]
            constructor
            · rintro (⟨u, h⟩ | h)
              · split at h
                · rename_i e; exact .inr (.inl e.symm)
                · exact .inl ⟨u, h⟩
              · exact .inr (.inr h)
            · rintro (⟨u, h⟩ | h | h)
              · by_cases e : n = x
                · exact .inl ⟨v, by simp [e]⟩
                · exact .inl ⟨u, by simp [e, h]⟩
              · exact .inl ⟨v, by simp [h]⟩
              · exact .inr h
          · intro hp'
            refine h4 ?_
            intro k u hk
            rw [Dict.get_set] at hk
            split at hk
            · simp only [Option.some.injEq] at hk; exact hk ▸ hp
            · exact hp' k u hk
          · rw [List.map_cons, h5 σ hσ]
            have : b'.get n = some v := h2 n v (by simp)
            simp [inst, hσ n v this]

theorem extendRow_complete {b : Binding} {args : List Value} {result : Binding} {σ : Assignment} (hσ : Agrees σ result)
    (hext : Extends b result) :
    ∃ b', extendRow b args (args.map (inst σ)) result false = .ok (b', false) ∧ Agrees σ b' := by
  induction args generalizing result with
  | nil => exact ⟨result, rfl, hσ⟩
  | cons a args ih =>
    rw [List.map_cons]
    cases ha : a.isVar with
    | false =>
      obtain ⟨b', h1, h2⟩ := ih hσ hext
      refine ⟨b', ?_, h2⟩
      rw [extendRow_cons_const b a ha, inst_const ha]
      simpa using h1
    | true =>
      cases a <;> simp only [Value.isVar, Bool.false_eq_true] at ha
      rename_i n
      rw [extendRow_cons_var]
      by_cases hn : b.has n = true
      · obtain ⟨b', h1, h2⟩ := ih hσ hext
        exact ⟨b', by simpa [hn] using h1, h2⟩
      · have hσ' : Agrees σ (result.set n (σ n)) := by
          intro k u hk
          rw [Dict.get_set] at hk
          split at hk
          · rename_i e; subst e; simpa using hk
          · exact hσ k u hk
        have hext' : Extends b (result.set n (σ n)) := by
          intro k u hk
          rw [Dict.get_set]
          split
          · rename_i e; subst e; exact absurd ((Dict.has_iff b n).2 ⟨u, hk⟩) hn
          · exact hext k u hk
        obtain ⟨b', h1, h2⟩ := ih hσ' hext'
        refine ⟨b', ?_, h2⟩
        simp only [hn, Bool.false_eq_true, if_false, inst]
        cases hg : result.get n with
        | none => exact h1
        | some u => simpa [hσ n u hg] using h1

/-! ## Tables -/

theorem rowOk_of_matches {b : Binding} {args row : List Value} (hb : PlainB b) (hl : row.length = args.length)
    (hp : ∀ v ∈ row, Plain v) (hm : rowMatches (dbValues args b) row = true) : RowOk b args row := by
  induction args generalizing row with
  | nil => cases row <;> simp_all [RowOk]
  | cons a args ih =>
    cases row with
    | nil => simp at hl
    | cons v row =>
      have hm' := hm
      simp only [dbValues, List.map_cons, rowMatches, Bool.and_eq_true, Bool.or_eq_true, decide_eq_true_eq] at hm'
      refine ⟨hp v (by simp), ?_, ih (by simpa using hl) (fun u hu => hp u (List.mem_cons_of_mem _ hu)) hm'.2⟩
      rintro x u rfl hu
      have h1 := hm'.1
      simp only [hu] at h1
      rcases h1 with h1 | h1
      · exact absurd h1 (hb x u hu).1
      · exact h1.symm

theorem matches_of_agrees {b : Binding} {args : List Value} {σ : Assignment} (hσ : Agrees σ b) :
    rowMatches (dbValues args b) (args.map (inst σ)) = true := by
  induction args with
  | nil => rfl
  | cons a args ih =>
    simp only [dbValues, List.map_cons, rowMatches, Bool.and_eq_true, Bool.or_eq_true, decide_eq_true_eq]
    refine ⟨?_, ih⟩
    cases a <;> simp [inst]
    rename_i n
    cases h : b.get n with
    | none => simp
    | some v => simp [hσ n v h]

/-! ## Rules -/

/-- The value of an argument under the binding, if it has one. -/
def valueOf (b : Binding) : Value → Option Value
  | .var x => b.get x
  | a => some a

/-- Head arguments carry the values of the call's bound arguments. -/
def HeadOk (b rb : Binding) : List Value → List Value → Prop
  | ra :: ras, a :: as => (∀ v, valueOf b a = some v →
      (∀ rn, ra = .var rn → rb.get rn = some v) ∧ (ra.isVar = false → ra = v)) ∧ HeadOk b rb ras as
  | _, _ => True

theorem HeadOk.mono {b rb rb' : Binding} (he : Extends rb rb') {ras as : List Value} (h : HeadOk b rb ras as) :
    HeadOk b rb' ras as := by
  induction ras generalizing as with
  | nil => simp [HeadOk]
  | cons ra ras ih =>
    cases as with
    | nil => simp [HeadOk]
    | cons a as =>
      exact ⟨fun v hv => ⟨fun rn e => he _ _ ((h.1 v hv).1 rn e), (h.1 v hv).2⟩, ih h.2⟩

/-- `bound_argument` of the code: the value or the variable itself. -/
def boundArg (b : Binding) (a : Value) : Value := match a with
  | .var n => (b.get n).getD (.var n)
  | a => a

theorem bindHead_skip (b : Binding) (ra : Value) (ras : List Value) (a : Value) (as : List Value) (rb : Binding)
    (h : (boundArg b a).isVar = true) : bindHead b (ra :: ras) (a :: as) rb = bindHead b ras as rb := by
  rw [bindHead.eq_def]
  dsimp only
  change (match ra with
    | .var rn => if (boundArg b a).isVar = true then _ else _
    | ra => if (boundArg b a).isVar = true then _ else _) = _
  split <;> rw [if_pos h]

theorem bindHead_var (b : Binding) (rn : String) (ras : List Value) (a : Value) (as : List Value) (rb : Binding)
    (h : (boundArg b a).isVar = false) : bindHead b (.var rn :: ras) (a :: as) rb =
      match rb.get rn with
      | some v => if v ≠ boundArg b a then none else bindHead b ras as (rb.set rn (boundArg b a))
      | none => bindHead b ras as (rb.set rn (boundArg b a)) := by
  rw [bindHead.eq_def]
  dsimp only
  change (if (boundArg b a).isVar = true then _ else _) = _
  rw [if_neg (by simp [h])]
  rfl

theorem bindHead_const (b : Binding) (ra : Value) (hra : ra.isVar = false) (ras : List Value) (a : Value)
    (as : List Value) (rb : Binding) (h : (boundArg b a).isVar = false) : bindHead b (ra :: ras) (a :: as) rb =
      if boundArg b a ≠ ra then none else bindHead b ras as rb := by
  rw [bindHead.eq_def]
  dsimp only
  split
  · simp [Value.isVar] at hra
  · change (if (boundArg b a).isVar = true then _ else _) = _
    rw [if_neg (by simp [h])]
    rfl

theorem boundArg_cases {b : Binding} (hb : PlainB b) {a : Value} (ha : a.isVar = false → Plain a) :
    ((boundArg b a).isVar = true ∧ valueOf b a = none) ∨
      ((boundArg b a).isVar = false ∧ valueOf b a = some (boundArg b a) ∧ Plain (boundArg b a)) := by
  cases hv : a.isVar with
  | false =>
    have : boundArg b a = a := by cases a <;> simp_all [boundArg, Value.isVar]
    rw [this]
    refine .inr ⟨hv, ?_, ha hv⟩
    cases a <;> simp_all [valueOf, Value.isVar]
  | true =>
    cases a <;> simp only [Value.isVar, Bool.false_eq_true] at hv
    rename_i n
    simp only [boundArg, valueOf]
    cases h : b.get n with
    | none => exact .inl ⟨rfl, rfl⟩
    | some v => exact .inr ⟨(hb n v h).2.1, rfl, hb n v h⟩

theorem bindHead_sound {b : Binding} (hb : PlainB b) {ras as : List Value} (has : ArgsOk as) {rb rb' : Binding}
    (hrb : PlainB rb) (h : bindHead b ras as rb = some rb') : Extends rb rb' ∧ PlainB rb' ∧ HeadOk b rb' ras as := by
  induction ras generalizing as rb with
  | nil => simp only [bindHead, Option.some.injEq] at h; subst h; exact ⟨Extends.refl _, hrb, by simp [HeadOk]⟩
  | cons ra ras ih =>
    cases as with
    | nil => simp only [bindHead, Option.some.injEq] at h; subst h; exact ⟨Extends.refl _, hrb, by simp [HeadOk]⟩
    | cons a as =>
      have has' : ArgsOk as := fun x hx => has x (List.mem_cons_of_mem _ hx)
      rcases boundArg_cases hb (has a (by simp)) with ⟨h1, h2⟩ | ⟨h1, h2, h3⟩
      · rw [bindHead_skip _ _ _ _ _ _ h1] at h
        obtain ⟨h4, h5, h6⟩ := ih has' hrb h
        exact ⟨h4, h5, by rw [h2]; simp, h6⟩
      · have hset : ∀ rn, PlainB (rb.set rn (boundArg b a)) := by
          intro rn k u hk
          rw [Dict.get_set] at hk
          split at hk
          · simp only [Option.some.injEq] at hk; exact hk ▸ h3
          · exact hrb k u hk
        cases hra : ra.isVar with
        | true =>
          cases ra <;> simp only [Value.isVar, Bool.false_eq_true] at hra
          rename_i rn
          rw [bindHead_var _ _ _ _ _ _ h1] at h
          have hfin : ∀ (_ : ∀ v, rb.get rn = some v → v = boundArg b a)
              (_ : bindHead b ras as (rb.set rn (boundArg b a)) = some rb'),
              Extends rb rb' ∧ PlainB rb' ∧ HeadOk b rb' (.var rn :: ras) (a :: as) := by
            intro hsame hrec
            obtain ⟨h4, h5, h6⟩ := ih has' (hset rn) hrec
            refine ⟨?_, h5, ?_, h6⟩
            · intro k u hk
              refine h4 k u ?_
              rw [Dict.get_set]
              split
              · rename_i e; subst e; rw [hsame u hk]
              · exact hk
            · intro v hv
              rw [h2] at hv
              simp only [Option.some.injEq] at hv
              subst hv
              exact ⟨fun rn' e => by cases e; exact h4 _ _ (by simp), by simp [Value.isVar]⟩
          cases hg : rb.get rn with
          | none => rw [hg] at h; exact hfin (by simp [hg]) h
          | some v =>
            rw [hg] at h
            simp only [ne_eq, ite_not] at h
            split at h
            · rename_i e; exact hfin (by simp [hg, e]) h
            · simp at h
        | false =>
          rw [bindHead_const _ _ hra _ _ _ _ h1] at h
          split at h
          · simp at h
          · rename_i e
            obtain ⟨h4, h5, h6⟩ := ih has' hrb h
            refine ⟨h4, h5, ?_, h6⟩
            intro v hv
            rw [h2] at hv
            simp only [Option.some.injEq] at hv
            subst hv
            exact ⟨fun rn e' => by subst e'; simp [Value.isVar] at hra, fun _ => (Classical.not_not.1 e).symm⟩

theorem bindHead_complete {b : Binding} (hb : PlainB b) {ras as : List Value} (has : ArgsOk as)
    {rb : Binding} {σ τ : Assignment} (hσ : Agrees σ b) (hτ : Agrees τ rb) (heq : ras.map (inst τ) = as.map (inst σ)) :
    ∃ rb', bindHead b ras as rb = some rb' ∧ Agrees τ rb' := by
  induction ras generalizing as rb with
  | nil => exact ⟨rb, by simp [bindHead], hτ⟩
  | cons ra ras ih =>
    cases as with
    | nil => simp at heq
    | cons a as =>
      simp only [List.map_cons, List.cons.injEq] at heq
      have has' : ArgsOk as := fun x hx => has x (List.mem_cons_of_mem _ hx)
      rcases boundArg_cases hb (has a (by simp)) with ⟨h1, h2⟩ | ⟨h1, h2, h3⟩
      · rw [bindHead_skip _ _ _ _ _ _ h1]; exact ih has' hτ heq.2
      · have hval : inst σ a = boundArg b a := by
          cases a <;> first | rfl | exact hσ _ _ h2
        cases hra : ra.isVar with
        | true =>
          cases ra <;> simp only [Value.isVar, Bool.false_eq_true] at hra
          rename_i rn
          have hrn : τ rn = boundArg b a := by rw [← hval, ← heq.1]; rfl
          have hτ' : Agrees τ (rb.set rn (boundArg b a)) := by
            intro k u hk
            rw [Dict.get_set] at hk
            split at hk
            · rename_i e; subst e; rw [hrn]; simpa using hk
            · exact hτ k u hk
          obtain ⟨rb', h4, h5⟩ := ih has' hτ' heq.2
          refine ⟨rb', ?_, h5⟩
          rw [bindHead_var _ _ _ _ _ _ h1]
          cases hg : rb.get rn with
          | none => simpa [hg] using h4
          | some v =>
            have : v = boundArg b a := by rw [← hτ rn v hg, hrn]
            simpa [hg, this] using h4
        | false =>
          have : boundArg b a = ra := by rw [← hval, ← heq.1, inst_const hra]
          obtain ⟨rb', h4, h5⟩ := ih has' hτ heq.2
          refine ⟨rb', ?_, h5⟩
          rw [bindHead_const _ _ hra _ _ _ _ h1, if_neg (by simp [this])]
          exact h4

theorem headRow_cons_var (s : Binding) (ra : Value) (ras : List Value) (x : String) (as : List Value) :
    headRow s (ra :: ras) (.var x :: as) = match ra with
      | .var rn => match s.get rn with
        | none => none
        | some v => (headRow s ras as).map (v :: ·)
      | ra => (headRow s ras as).map (ra :: ·) := by
  cases ra <;> simp only [headRow]
  rfl

theorem headRow_cons_const (s : Binding) (ra : Value) (ras : List Value) (a : Value) (ha : a.isVar = false)
    (as : List Value) : headRow s (ra :: ras) (a :: as) = (headRow s ras as).map (a :: ·) := by
  cases a <;> first | (simp [Value.isVar] at ha; done) | simp only [headRow]

theorem headRow_sound {b s : Binding} (hs : PlainB s) {ras as row : List Value} (hras : ArgsOk ras) (has : ArgsOk as)
    (hl : ras.length = as.length) (hh : HeadOk b s ras as) (h : headRow s ras as = some row) :
    RowOk b as row ∧ ∀ σ, Agrees σ s → ras.map (inst σ) = row := by
  induction ras generalizing as row with
  | nil =>
    cases as with
    | nil => simp only [headRow, Option.some.injEq] at h; subst h; exact ⟨trivial, by simp⟩
    | cons => simp at hl
  | cons ra ras ih =>
    cases as with
    | nil => simp at hl
    | cons a as =>
      have hl' : ras.length = as.length := by simpa using hl
      have ih := fun {row} => ih (row := row) (fun x hx => hras x (List.mem_cons_of_mem _ hx))
        (fun x hx => has x (List.mem_cons_of_mem _ hx)) hl' hh.2
      cases hav : a.isVar with
      | false =>
        rw [headRow_cons_const s ra ras a hav, Option.map_eq_some_iff] at h
        obtain ⟨row', h1, rfl⟩ := h
        obtain ⟨h2, h3⟩ := ih h1
        have hval : valueOf b a = some a := by cases a <;> simp_all [valueOf, Value.isVar]
        have hh1 := hh.1 a hval
        refine ⟨⟨has a (by simp) hav, ?_, h2⟩, fun σ hσ => ?_⟩
        · rintro x u rfl _; simp [Value.isVar] at hav
        · rw [List.map_cons, h3 σ hσ]
          congr 1
          cases hra : ra.isVar with
          | false => rw [inst_const hra]; exact hh1.2 hra
          | true =>
            cases ra <;> simp only [Value.isVar, Bool.false_eq_true] at hra
            exact hσ _ _ (hh1.1 _ rfl)
      | true =>
        cases a <;> simp only [Value.isVar, Bool.false_eq_true] at hav
        rename_i x
        rw [headRow_cons_var] at h
        cases hra : ra.isVar with
        | true =>
          cases ra <;> simp only [Value.isVar, Bool.false_eq_true] at hra
          rename_i rn
          dsimp only at h
          cases hg : s.get rn with
          | none => rw [hg] at h; simp at h
          | some v =>
            rw [hg] at h
            simp only [Option.map_eq_some_iff] at h
            obtain ⟨row', h1, rfl⟩ := h
            obtain ⟨h2, h3⟩ := ih h1
            refine ⟨⟨hs rn v hg, ?_, h2⟩, fun σ hσ => ?_⟩
            · rintro y u e hu
              cases e
              have := (hh.1 u hu).1 rn rfl
              rw [hg] at this
              simpa using this
            · rw [List.map_cons, h3 σ hσ]; simp [inst, hσ rn v hg]
        | false =>
          have h' : (headRow s ras as).map (ra :: ·) = some row := by
            cases ra <;> first | exact h | simp [Value.isVar] at hra
          rw [Option.map_eq_some_iff] at h'
          obtain ⟨row', h1, rfl⟩ := h'
          obtain ⟨h2, h3⟩ := ih h1
          refine ⟨⟨hras ra (by simp) hra, ?_, h2⟩, fun σ hσ => ?_⟩
          · rintro y u e hu
            cases e
            exact (hh.1 u hu).2 hra
          · rw [List.map_cons, h3 σ hσ, inst_const hra]

theorem headRow_total {s : Binding} {ras as : List Value} (h : ∀ x, Value.var x ∈ ras → s.has x = true) :
    ∃ row, headRow s ras as = some row := by
  induction ras generalizing as with
  | nil => exact ⟨[], by cases as <;> simp [headRow]⟩
  | cons ra ras ih =>
    cases as with
    | nil => exact ⟨[], by simp [headRow]⟩
    | cons a as =>
      obtain ⟨row, hr⟩ := ih (as := as) (fun x hx => h x (List.mem_cons_of_mem _ hx))
      cases hav : a.isVar with
      | false => rw [headRow_cons_const s ra ras a hav, hr]; exact ⟨_, rfl⟩
      | true =>
        cases a <;> simp only [Value.isVar, Bool.false_eq_true] at hav
        rw [headRow_cons_var]
        cases ra <;> simp only [hr, Option.map_some, Option.some.injEq, exists_eq']
        rename_i rn
        obtain ⟨v, hv⟩ := (Dict.has_iff s rn).1 (h rn (by simp))
        rw [hv]; exact ⟨_, rfl⟩

theorem headRows_some {ras as : List Value} {ss : List Binding} {rows : List (List Value)}
    (h : headRows ras as ss = some rows) : ∀ row, row ∈ rows ↔ ∃ s ∈ ss, headRow s ras as = some row := by
  induction ss generalizing rows with
  | nil => simp only [headRows, Option.some.injEq] at h; subst h; simp
  | cons s ss ih =>
    simp only [headRows] at h
    cases hr : headRow s ras as with
    | none => rw [hr] at h; simp at h
    | some r =>
      rw [hr] at h
      simp only [Option.map_eq_some_iff] at h
      obtain ⟨rows', h1, rfl⟩ := h
      intro row
      rw [List.mem_cons, ih h1]
      constructor
      · rintro (rfl | ⟨s', h, e⟩)
        · exact ⟨s, by simp, hr⟩
        · exact ⟨s', List.mem_cons_of_mem _ h, e⟩
      · rintro ⟨s', h, e⟩
        rcases List.mem_cons.1 h with rfl | h
        · rw [hr] at e; exact .inl (by simpa using e.symm)
        · exact .inr ⟨s', h, e⟩

theorem headRows_total {ras as : List Value} {ss : List Binding} (h : ∀ s ∈ ss, ∃ row, headRow s ras as = some row) :
    ∃ rows, headRows ras as ss = some rows := by
  induction ss with
  | nil => exact ⟨[], rfl⟩
  | cons s ss ih =>
    obtain ⟨row, hr⟩ := h s (by simp)
    obtain ⟨rows, hrs⟩ := ih (fun s hs => h s (List.mem_cons_of_mem _ hs))
    exact ⟨row :: rows, by simp [headRows, hr, hrs]⟩

end Verif

import Verif.CoreLemmas
import Verif.Props.Core1

/-!
# Properties of the core module: C15, C16, C17, C21
-/

set_option linter.unusedSimpArgs false

namespace Verif

variable {W : Type}

/-! ## C15 -/

section C15
variable (mods : List (Module W)) (n : Nat) (w w' : W) (b : Binding)

theorem sumLoop_eq {e : String} {bs : List Binding} {f : Binding → Rat}
    (h : ∀ b' ∈ bs, b'.get e = some (.num (f b'))) (s : Rat) :
    sumLoop (.var e) bs s = .ok (s + (bs.map f).sum) := by
  induction bs generalizing s with
  | nil => simp [sumLoop, Rat.add_zero]
  | cons b' bs ih =>
    simp only [sumLoop, lookupVar, nameOf, h b' (by simp)]
    rw [ih (fun x hx => h x (List.mem_cons_of_mem _ hx))]
    simp [Rat.add_assoc]

/-- The binding after an aggregate: the result variable has its value, the element variable is `None` unless it was bound. -/
theorem extendRow_agg {x e : String} {a body : Value} (hxe : x ≠ e) (hx : b.get x = none)
    (ha : argValue b a = some body) (v : Value) :
    ∃ b', extendRow b [.var x, .var e, a] [v, .none, .none] b false = .ok (b', false) ∧ b'.get x = some v ∧
      ∀ y, y ≠ x → y ≠ e → b'.get y = b.get y := by
  rw [extendRow_new hx _ _ _ _ hx]
  cases he : b.get e with
  | some u =>
    rw [extendRow_none (a := .var e) (v := u) he, extendRow_none ha]
    refine ⟨_, rfl, by simp, fun y h1 _ => by simp [Dict.get_set, Ne.symm h1]⟩
  | none =>
    rw [extendRow_new he _ _ _ _ (by rw [Dict.get_set]; simp [hxe, he]), extendRow_none ha]
    refine ⟨_, rfl, ?_, fun y h1 h2 => by simp [Dict.get_set, Ne.symm h1, Ne.symm h2]⟩
    rw [Dict.get_set]; simp [Ne.symm hxe]

/-- **C15** (`sum`). If the body answers `bs` and `f` gives the value of the element variable in each answer, the result
variable is bound to the exact sum; no variable but the two given ones changes. -/
theorem C15_sum (hp : NotDefined mods w "sum") (x e : String) (hxe : x ≠ e) (hx : b.get x = none) (a body : Value)
    (ha : argValue b a = some body) (bs : List Binding)
    (hb : (solverAt (modelOf mods) n).solve body b w = .ok w' (.rows bs))
    (f : Binding → Rat) (hf : ∀ b' ∈ bs, b'.get e = some (.num (f b'))) :
    ∃ b', (solverAt (modelOf mods) (n + 1)).solve (query1 "sum" [.var x, .var e, a]) b w = .ok w' (.rows [b']) ∧
      b'.get x = some (.num (bs.map f).sum) ∧ ∀ y, y ≠ x → y ≠ e → b'.get y = b.get y := by
  obtain ⟨b', h1, h2, h3⟩ := extendRow_agg b hxe hx ha (.num (bs.map f).sum)
  refine ⟨b', ?_, h2, h3⟩
  rw [solve_core hp rfl (by decide)]
  simp only [coreSum]
  core_eval
  rw [ha]
  simp only [Option.getD_some, M.bind_run, hb, iterSol, M.pure_run]
  rw [sumLoop_eq hf]
  simp [M.lift, M.pure, dedupRows_singleton, resultsOf_one (by rfl) w' h1, Rat.zero_add]

/-- **C15** (`avg`). The exact mean, when there is an answer. -/
theorem C15_avg (hp : NotDefined mods w "avg") (x e : String) (hxe : x ≠ e) (hx : b.get x = none) (a body : Value)
    (ha : argValue b a = some body) (bs : List Binding) (hne : bs ≠ [])
    (hb : (solverAt (modelOf mods) n).solve body b w = .ok w' (.rows bs))
    (f : Binding → Rat) (hf : ∀ b' ∈ bs, b'.get e = some (.num (f b'))) :
    ∃ b' q, (solverAt (modelOf mods) (n + 1)).solve (query1 "avg" [.var x, .var e, a]) b w = .ok w' (.rows [b']) ∧
      b'.get x = some (.num q) ∧ q * bs.length = (bs.map f).sum ∧ ∀ y, y ≠ x → y ≠ e → b'.get y = b.get y := by
  obtain ⟨b', h1, h2, h3⟩ := extendRow_agg b hxe hx ha (.num ((bs.map f).sum / bs.length))
  have hlen : (bs.length : Rat) ≠ 0 := by
    intro h
    have : bs.length = 0 := by exact_mod_cast h
    exact hne (List.length_eq_zero_iff.1 this)
  refine ⟨b', (bs.map f).sum / bs.length, ?_, h2, Rat.div_mul_cancel hlen, h3⟩
  rw [solve_core hp rfl (by decide)]
  simp only [coreAvg]
  core_eval
  rw [ha]
  simp only [Option.getD_some, M.bind_run, hb, iterSol, M.pure_run]
  have h0 : (SolOut.rows bs).len ≠ 0 := by
    intro h; exact hne (List.length_eq_zero_iff.1 h)
  simp only [h0, if_false, M.bind_run, M.pure_run]
  rw [sumLoop_eq hf]
  simp [M.lift, M.pure, dedupRows_singleton, resultsOf_one (by rfl) w' h1, Rat.zero_add]

/-- **C15** (`percentage`). 100 times the ratio of the two numbers of answers. -/
theorem C15_percentage (hp : NotDefined mods w "percentage") (x : String) (hx : b.get x = none) (a1 a2 body1 body2 : Value)
    (ha1 : argValue b a1 = some body1) (ha2 : argValue b a2 = some body2) (w1 : W) (r1 r2 : SolOut)
    (hb1 : (solverAt (modelOf mods) n).solve body1 b w = .ok w1 r1)
    (hb2 : (solverAt (modelOf mods) n).solve body2 b w1 = .ok w' r2) (hne : r2.len ≠ 0) :
    ∃ q, (solverAt (modelOf mods) (n + 1)).solve (query1 "percentage" [.var x, a1, a2]) b w =
        .ok w' (.rows [b.set x (.num q)]) ∧ q * r2.len = 100 * r1.len := by
  have hlen : (r2.len : Rat) ≠ 0 := by
    intro h; exact hne (by exact_mod_cast h)
  refine ⟨(r1.len : Rat) / r2.len * 100, ?_, ?_⟩
  · have he : extendRow b [.var x, a1, a2] [.num ((r1.len : Rat) / r2.len * 100), .none, .none] b false =
        .ok (b.set x (.num ((r1.len : Rat) / r2.len * 100)), false) := by
      rw [extendRow_new hx _ _ _ _ hx, extendRow_none ha1, extendRow_none ha2]; rfl
    rw [solve_core hp rfl (by decide)]
    simp only [corePercentage]
    core_eval
    rw [ha1, ha2]
    simp only [Option.getD_some, M.bind_run, hb1, hb2, hne, if_false, M.pure_run, dedupRows_singleton,
      resultsOf_one (by rfl) w' he]
    rfl
  · rw [Rat.mul_comm, ← Rat.mul_assoc, Rat.mul_comm (r2.len : Rat), Rat.div_mul_cancel hlen, Rat.mul_comm]

/-- **C15** (no answers). `avg`, `arg_min` and `arg_max` have no answer if the body has none, `percentage` if its second body
has none; `sum` is then 0 by `C15_sum`. -/
theorem C15_no_answers (x e : String) (a body : Value)
    (ha : argValue b a = some body) (r : SolOut) (hr : r.len = 0)
    (hb : (solverAt (modelOf mods) n).solve body b w = .ok w' r) (p : String) (hp : NotDefined mods w p)
    (hpp : p ∈ ["avg", "arg_min", "arg_max"]) :
    (solverAt (modelOf mods) (n + 1)).solve (query1 p [.var x, .var e, a]) b w = .ok w' (.rows []) := by
  simp only [List.mem_cons, List.not_mem_nil, or_false] at hpp
  rcases hpp with rfl | rfl | rfl
  · rw [solve_core hp rfl (by decide)]
    simp only [coreAvg]
    core_eval
    rw [ha]
    simp [M.bind_run, hb, hr, dedupRows, resultsOf]
  · rw [solve_core hp rfl (by decide)]
    simp only [coreArgMin, coreArg]
    core_eval
    rw [ha]
    simp [M.bind_run, hb, hr, dedupRows, resultsOf]
  · rw [solve_core hp rfl (by decide)]
    simp only [coreArgMax, coreArg]
    core_eval
    rw [ha]
    simp [M.bind_run, hb, hr, dedupRows, resultsOf]

theorem C15_percentage_no_answers (hp : NotDefined mods w "percentage") (x : Value) (a1 a2 body1 body2 : Value)
    (ha1 : argValue b a1 = some body1) (ha2 : argValue b a2 = some body2) (w1 : W) (r1 r2 : SolOut)
    (hb1 : (solverAt (modelOf mods) n).solve body1 b w = .ok w1 r1)
    (hb2 : (solverAt (modelOf mods) n).solve body2 b w1 = .ok w' r2) (hne : r2.len = 0) :
    (solverAt (modelOf mods) (n + 1)).solve (query1 "percentage" [x, a1, a2]) b w = .ok w' (.rows []) := by
  rw [solve_core hp rfl (by decide)]
  simp only [corePercentage]
  core_eval
  rw [ha1, ha2]
  simp [M.bind_run, hb1, hb2, hne, dedupRows, resultsOf]

/-- **C15** (a variable without a value) If the answers give the variable no value, aggregating over it raises. -/
theorem C15_unbound (x e : String) (a body : Value) (ha : argValue b a = some body) (b0 : Binding) (bs : List Binding) (he : b0.get e = none)
    (hb : (solverAt (modelOf mods) n).solve body b w = .ok w' (.rows (b0 :: bs))) (p : String) (hp : NotDefined mods w p)
    (hpp : p ∈ ["sum", "avg", "arg_min", "arg_max"]) :
    (solverAt (modelOf mods) (n + 1)).solve (query1 p [.var x, .var e, a]) b w = .err w' .keyError := by
  have hl : lookupVar b0 (.var e) = .error .keyError := by simp [lookupVar, nameOf, he]
  simp only [List.mem_cons, List.not_mem_nil, or_false] at hpp
  rcases hpp with rfl | rfl | rfl | rfl
  · rw [solve_core hp rfl (by decide)]
    simp only [coreSum]
    core_eval
    rw [ha]
    simp [M.bind_run, hb, iterSol, sumLoop, hl, M.lift, M.pure_run, M.throw]
  · rw [solve_core hp rfl (by decide)]
    simp only [coreAvg]
    core_eval
    rw [ha]
    simp [M.bind_run, hb, iterSol, sumLoop, hl, M.lift, M.pure_run, M.throw, SolOut.len]
  · rw [solve_core hp rfl (by decide)]
    simp only [coreArgMin, coreArg]
    core_eval
    rw [ha]
    simp [M.bind_run, hb, iterSol, argLoop, argBetter, hl, M.lift, M.pure_run, M.throw, SolOut.len]
  · rw [solve_core hp rfl (by decide)]
    simp only [coreArgMax, coreArg]
    core_eval
    rw [ha]
    simp [M.bind_run, hb, iterSol, argLoop, argBetter, hl, M.lift, M.pure_run, M.throw, SolOut.len]

/-- The position of the best answer: everything before it is strictly worse, nothing after it is better. -/
def IsFirstBest (better : Rat → Rat → Prop) (f : Binding → Rat) (bs : List Binding) (best : Binding) : Prop :=
  ∃ pre post, bs = pre ++ best :: post ∧ (∀ b' ∈ pre, better (f best) (f b')) ∧ ∀ b' ∈ post, ¬ better (f b') (f best)

theorem argLoop_spec {lt : Value → Value → Except Err Bool} {better : Rat → Rat → Prop} [DecidableRel better]
    (hlt : ∀ p q, lt (.num p) (.num q) = .ok (decide (better p q)))
    (htrans : ∀ p q r, better p q → better q r → better p r)
    (hneg : ∀ p q r, ¬ better p q → ¬ better q r → ¬ better p r) {x e : String} {f : Binding → Rat} {g : Binding → Value}
    {bs : List Binding} (hf : ∀ b' ∈ bs, b'.get e = some (.num (f b'))) (hg : ∀ b' ∈ bs, b'.get x = some (g b'))
    (cur : Binding) :
    ∃ best, argLoop lt (.var x) (.var e) bs (.num (f cur)) (g cur) = .ok (g best, .num (f best)) ∧
      IsFirstBest better f (cur :: bs) best := by
  induction bs generalizing cur with
  | nil => exact ⟨cur, rfl, [], [], rfl, by simp, by simp⟩
  | cons b' bs ih =>
    have hb' := hf b' (by simp)
    have hgb' := hg b' (by simp)
    have ih := ih (fun x hx => hf x (List.mem_cons_of_mem _ hx)) (fun x hx => hg x (List.mem_cons_of_mem _ hx))
    by_cases hbt : better (f b') (f cur)
    · obtain ⟨best, h1, pre, post, h2, h3, h4⟩ := ih b'
      refine ⟨best, ?_, cur :: pre, post, by simp [h2], ?_, h4⟩
      · simp [argLoop, argBetter, lookupVar, nameOf, hb', hgb', hlt, hbt, h1]
      · intro y hy
        rcases List.mem_cons.1 hy with rfl | hy
        · cases pre with
          | nil =>
            simp only [List.nil_append, List.cons.injEq] at h2
            rw [← h2.1]; exact hbt
          | cons z pre =>
            simp only [List.cons_append, List.cons.injEq] at h2
            exact htrans _ _ _ (h3 z (by simp)) (h2.1 ▸ hbt)
        · exact h3 y hy
    · obtain ⟨best, h1, pre, post, h2, h3, h4⟩ := ih cur
      cases pre with
      | nil =>
        simp only [List.nil_append, List.cons.injEq] at h2
        obtain ⟨rfl, rfl⟩ := h2
        refine ⟨cur, ?_, [], b' :: bs, rfl, by simp, ?_⟩
        · simp [argLoop, argBetter, lookupVar, nameOf, hb', hgb', hlt, hbt, h1]
        · intro y hy
          rcases List.mem_cons.1 hy with rfl | hy
          · exact hbt
          · exact h4 y hy
      | cons z pre =>
        simp only [List.cons_append, List.cons.injEq] at h2
        obtain ⟨rfl, rfl⟩ := h2
        refine ⟨best, ?_, cur :: b' :: pre, post, by simp, ?_, h4⟩
        · simp [argLoop, argBetter, lookupVar, nameOf, hb', hgb', hlt, hbt, h1]
        · intro y hy
          simp only [List.mem_cons] at hy
          rcases hy with rfl | rfl | hy
          · exact h3 _ (by simp)
          · by_cases h : better (f best) (f y)
            · exact h
            · exact absurd (h3 cur (by simp)) (hneg _ _ _ h hbt)
          · exact h3 y (List.mem_cons_of_mem _ hy)

theorem argLoop_start {lt : Value → Value → Except Err Bool} {x e : String} {f : Binding → Rat} {g : Binding → Value}
    {b' : Binding} {bs : List Binding} (hf : b'.get e = some (.num (f b'))) (hg : b'.get x = some (g b')) :
    argLoop lt (.var x) (.var e) (b' :: bs) .none .none = argLoop lt (.var x) (.var e) bs (.num (f b')) (g b') := by
  simp [argLoop, argBetter, lookupVar, nameOf, hf, hg]

theorem extendRow_arg {x e : String} {a body : Value} (hxe : x ≠ e) (hx : b.get x = none) (he : b.get e = none)
    (ha : argValue b a = some body) (v u : Value) :
    extendRow b [.var x, .var e, a] [v, u, .none] b false = .ok ((b.set x v).set e u, false) := by
  rw [extendRow_new hx _ _ _ _ hx, extendRow_new he _ _ _ _ (by rw [Dict.get_set]; simp [hxe, he]), extendRow_none ha]
  rfl

/-- **C15** (`arg_min`). The answer binds the two variables to the entity and the value of the first answer of the body whose
value is minimal. -/
theorem C15_arg_min (hp : NotDefined mods w "arg_min") (x e : String) (hxe : x ≠ e) (hx : b.get x = none)
    (he : b.get e = none) (a body : Value) (ha : argValue b a = some body) (bs : List Binding) (hne : bs ≠ [])
    (hb : (solverAt (modelOf mods) n).solve body b w = .ok w' (.rows bs))
    (f : Binding → Rat) (hf : ∀ b' ∈ bs, b'.get e = some (.num (f b')))
    (g : Binding → Value) (hg : ∀ b' ∈ bs, b'.get x = some (g b')) :
    ∃ best, IsFirstBest (· < ·) f bs best ∧
      (solverAt (modelOf mods) (n + 1)).solve (query1 "arg_min" [.var x, .var e, a]) b w =
        .ok w' (.rows [(b.set x (g best)).set e (.num (f best))]) := by
  cases bs with
  | nil => simp at hne
  | cons b0 bs =>
    obtain ⟨best, h1, h2⟩ := argLoop_spec (lt := pyLt) (better := (· < ·)) (fun p q => by simp [pyLt])
      (fun p q r h1 h2 => by grind)
      (fun p q r h1 h2 => by rw [Rat.not_lt] at *; exact Rat.le_trans h2 h1)
      (fun x hx => hf x (List.mem_cons_of_mem _ hx)) (fun x hx => hg x (List.mem_cons_of_mem _ hx)) b0
    refine ⟨best, h2, ?_⟩
    rw [solve_core hp rfl (by decide)]
    simp only [coreArgMin, coreArg]
    core_eval
    rw [ha]
    simp only [Option.getD_some, M.bind_run, hb, iterSol, M.pure_run]
    have h0 : (SolOut.rows (b0 :: bs)).len ≠ 0 := by simp [SolOut.len]
    simp only [h0, if_false, M.bind_run, M.pure_run]
    rw [argLoop_start (hf b0 (by simp)) (hg b0 (by simp)), h1]
    simp [SolOut.len, M.lift, M.bind_run, M.pure, dedupRows_singleton,
      resultsOf_one (by rfl) w' (extendRow_arg b hxe hx he ha (g best) (.num (f best)))]

/-- **C15** (`arg_max`). Same, for the first answer whose value is maximal. -/
theorem C15_arg_max (hp : NotDefined mods w "arg_max") (x e : String) (hxe : x ≠ e) (hx : b.get x = none)
    (he : b.get e = none) (a body : Value) (ha : argValue b a = some body) (bs : List Binding) (hne : bs ≠ [])
    (hb : (solverAt (modelOf mods) n).solve body b w = .ok w' (.rows bs))
    (f : Binding → Rat) (hf : ∀ b' ∈ bs, b'.get e = some (.num (f b')))
    (g : Binding → Value) (hg : ∀ b' ∈ bs, b'.get x = some (g b')) :
    ∃ best, IsFirstBest (· > ·) f bs best ∧
      (solverAt (modelOf mods) (n + 1)).solve (query1 "arg_max" [.var x, .var e, a]) b w =
        .ok w' (.rows [(b.set x (g best)).set e (.num (f best))]) := by
  cases bs with
  | nil => simp at hne
  | cons b0 bs =>
    obtain ⟨best, h1, h2⟩ := argLoop_spec (lt := fun a b => pyLt b a) (better := (· > ·))
      (fun p q => by simp [pyLt]) (fun p q r h1 h2 => by grind)
      (fun p q r h1 h2 => by rw [gt_iff_lt, Rat.not_lt] at *; exact Rat.le_trans h1 h2)
      (fun x hx => hf x (List.mem_cons_of_mem _ hx)) (fun x hx => hg x (List.mem_cons_of_mem _ hx)) b0
    refine ⟨best, h2, ?_⟩
    rw [solve_core hp rfl (by decide)]
    simp only [coreArgMax, coreArg]
    core_eval
    rw [ha]
    simp only [Option.getD_some, M.bind_run, hb, iterSol, M.pure_run]
    have h0 : (SolOut.rows (b0 :: bs)).len ≠ 0 := by simp [SolOut.len]
    simp only [h0, if_false, M.bind_run, M.pure_run]
    rw [argLoop_start (hf b0 (by simp)) (hg b0 (by simp)), h1]
    simp [SolOut.len, M.lift, M.bind_run, M.pure, dedupRows_singleton,
      resultsOf_one (by rfl) w' (extendRow_arg b hxe hx he ha (g best) (.num (f best)))]

end C15

/-- `age(X, A)` over the example facts. -/
def Ex.ages : Value := .list [.tuple [.str "age", .var "X", .var "A"]]

example : (solverAt (modelOf [tableModule Unit Ex.db]) 1).solve Ex.ages [] () =
      .ok () (.rows [[("X", .str "ann"), ("A", .num 70)], [("X", .str "bob"), ("A", .num 40)]]) ∧
    (solverAt (modelOf [tableModule Unit Ex.db]) 2).solve (query1 "arg_min" [.var "X", .var "A", Ex.ages]) [] () =
      .ok () (.rows [[("X", .str "bob"), ("A", .num 40)]]) ∧
    (solverAt (modelOf [tableModule Unit Ex.db]) 2).solve (query1 "avg" [.var "V", .var "A", Ex.ages]) [] () =
      .ok () (.rows [[("V", .num 55), ("A", .none)]]) ∧
    (solverAt (modelOf [tableModule Unit Ex.db]) 2).solve (query1 "sum" [.var "V", .var "B", Ex.ages]) [] () = .err () .keyError := by decide +kernel

end Verif

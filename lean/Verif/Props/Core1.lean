import Verif.CoreLemmas
import Verif.Props.Solver

/-!
# Properties of the core module: C13, C14, C60

All statements are about `Solver.solve` on a query of one core atom, with the core module and any other modules that do
not define the same predicate, from any world, at any depth.
-/

set_option linter.unusedSimpArgs false

namespace Verif

variable {W : Type}

/-- The query that consists of one atom. -/
abbrev query1 (p : String) (args : List Value) : Value := .list [.tuple (.str p :: args)]

/-- Evaluates the outcome of the relation. -/
macro "core_eval" : tactic =>
  `(tactic| (simp only [dbValues_cons, dbValues_nil, nth, List.getElem?_cons_zero, List.getElem?_cons_succ, M.bind_run,
      M.pure_run, Option.getD_some]))

/-! ## C13 -/

section C13
variable (mods : List (Module W)) (n : Nat) (w : W) (a body : Value) (b : Binding)

/-- **C13** (`not`). If the argument stands for the list of atoms `body`, the query `not(body)` has exactly one answer, the
given binding, when the body has no answer, and none when it has; an exception of the body is passed on. -/
theorem C13_not (hp : NotDefined mods w "not") (ha : argValue b a = some body) :
    (solverAt (modelOf mods) (n + 1)).solve (query1 "not" [a]) b w =
      ((solverAt (modelOf mods) n).solve body b w).map fun r => .rows (if r.len = 0 then [b] else []) := by
  rw [solve_core hp rfl (by decide)]
  simp only [coreNot]
  core_eval
  rw [ha, Option.getD_some]
  cases (solverAt (modelOf mods) n).solve body b w with
  | err => rfl
  | oof => rfl
  | ok w' r =>
    have he : extendRow b [a] [.none] b false = .ok (b, false) := by rw [extendRow_none ha]; rfl
    cases hr : r.len with
    | zero => simp [Res.map, hr, dedupRows_singleton, resultsOf_one (by rfl) w' he]
    | succ k => simp [Res.map, hr, dedupRows, resultsOf]

/-- **C13** (`none`). Same as `not`. -/
theorem C13_none (hp : NotDefined mods w "none") (ha : argValue b a = some body) :
    (solverAt (modelOf mods) (n + 1)).solve (query1 "none" [a]) b w =
      ((solverAt (modelOf mods) n).solve body b w).map fun r => .rows (if r.len = 0 then [b] else []) := by
  rw [solve_core hp rfl (by decide)]
  simp only [coreNone]
  core_eval
  rw [ha, Option.getD_some]
  cases (solverAt (modelOf mods) n).solve body b w with
  | err => rfl
  | oof => rfl
  | ok w' r =>
    have he : extendRow b [a] [.none] b false = .ok (b, false) := by rw [extendRow_none ha]; rfl
    cases hr : r.len with
    | zero => simp [Res.map, hr, dedupRows_singleton, resultsOf_one (by rfl) w' he]
    | succ k => simp [Res.map, hr, dedupRows, resultsOf]

/-- **C13** (`scoped`). The query `scoped(body)` has exactly one answer, the given binding, when the body has an answer. -/
theorem C13_scoped (hp : NotDefined mods w "scoped") (ha : argValue b a = some body) :
    (solverAt (modelOf mods) (n + 1)).solve (query1 "scoped" [a]) b w =
      ((solverAt (modelOf mods) n).solve body b w).map fun r => .rows (if r.len = 0 then [] else [b]) := by
  rw [solve_core hp rfl (by decide)]
  simp only [coreScoped]
  core_eval
  rw [ha, Option.getD_some]
  cases (solverAt (modelOf mods) n).solve body b w with
  | err => rfl
  | oof => rfl
  | ok w' r =>
    have he : extendRow b [a] [.none] b false = .ok (b, false) := by rw [extendRow_none ha]; rfl
    cases hr : r.len with
    | zero => simp [Res.map, hr, dedupRows, resultsOf]
    | succ k => simp [Res.map, hr, dedupRows_singleton, resultsOf_one (by rfl) w' he]

/-- **C13** (double negation). `not(not(body))` gives what `scoped(body)` gives, one level of nesting deeper. -/
theorem C13_not_not (hp : NotDefined mods w "not") (hq : NotDefined mods w "scoped") (as : List Value) :
    (solverAt (modelOf mods) (n + 2)).solve (query1 "not" [query1 "not" [.list as]]) b w =
      (solverAt (modelOf mods) (n + 1)).solve (query1 "scoped" [.list as]) b w := by
  rw [C13_not mods (n + 1) w (query1 "not" [.list as]) _ b hp rfl, C13_not mods n w (.list as) _ b hp rfl,
    C13_scoped mods n w (.list as) _ b hq rfl]
  cases (solverAt (modelOf mods) n).solve (.list as) b w with
  | err => rfl
  | oof => rfl
  | ok w' r =>
    have hl : ∀ bs, (SolOut.rows bs).len = bs.length := fun _ => rfl
    cases hr : r.len <;> simp [Res.map, hl, hr]

end C13

example : NotDefined [tableModule Unit Ex.db] () "not" ∧ argValue [("B", Ex.grand)] (.var "B") = some Ex.grand ∧
    (solverAt (modelOf [tableModule Unit Ex.db]) 2).solve (query1 "not" [Ex.grand]) [("X", .str "zed")] () =
      .ok () (.rows [[("X", .str "zed")]]) ∧
    (solverAt (modelOf [tableModule Unit Ex.db]) 2).solve (query1 "not" [Ex.grand]) [("X", .str "ann")] () =
      .ok () (.rows []) := by
  refine ⟨?_, by decide +kernel, by decide +kernel, by decide +kernel⟩
  intro m hm
  simp only [List.mem_singleton] at hm
  subst hm
  decide +kernel

/-! ## C14 -/

section C14
variable (mods : List (Module W)) (n : Nat) (w : W) (a body : Value) (b : Binding)

/-- **C14** (`count`). With a new variable, `count` has one answer: the given binding extended with the number of answers
of the body (the length of a `ResultIterator` included). -/
theorem C14_count (hp : NotDefined mods w "count") (ha : argValue b a = some body) (x : String) (hx : b.get x = none) :
    (solverAt (modelOf mods) (n + 1)).solve (query1 "count" [.var x, a]) b w =
      ((solverAt (modelOf mods) n).solve body b w).map fun r => .rows [b.set x (.num r.len)] := by
  rw [solve_core hp rfl (by decide)]
  simp only [coreCount]
  core_eval
  rw [ha, Option.getD_some]
  cases (solverAt (modelOf mods) n).solve body b w with
  | err => rfl
  | oof => rfl
  | ok w' r =>
    have he : extendRow b [.var x, a] [.num r.len, .none] b false = .ok (b.set x (.num r.len), false) := by
      rw [extendRow_new hx _ _ _ _ hx, extendRow_none ha]; rfl
    simp [Res.map, dedupRows_singleton, resultsOf_one (by rfl) w' he]

/-- **C14** (`count` against a constant). Succeeds iff the number of answers is that constant. -/
theorem C14_count_constant (hp : NotDefined mods w "count") (ha : argValue b a = some body) (q : Rat) :
    (solverAt (modelOf mods) (n + 1)).solve (query1 "count" [.num q, a]) b w =
      ((solverAt (modelOf mods) n).solve body b w).map fun r => .rows (if (r.len : Rat) = q then [b] else []) := by
  rw [solve_core hp rfl (by decide)]
  simp only [coreCount]
  core_eval
  rw [ha, Option.getD_some]
  cases (solverAt (modelOf mods) n).solve body b w with
  | err => rfl
  | oof => rfl
  | ok w' r =>
    have he : extendRow b [.num q, a] [.num r.len, .none] b false = .ok (b, decide (q ≠ r.len)) := by
      rw [extendRow_cons_const _ _ rfl]
      simp only []
      rw [extendRow_none ha]
      simp [extendRow]
    have hs := resultsOf_one (by rfl) w' he
    simp only [Res.map, dedupRows_singleton, hs]
    by_cases h : q = (r.len : Rat)
    · simp [h]
    · simp [h, Ne.symm h]

/-- **C14** (determiners). `det_equals`, `det_greater_than` and `det_less_than` succeed, leaving the binding as it is, iff the
number of answers of the body is equal to, greater than, less than the given number. -/
theorem C14_det_equals (hp : NotDefined mods w "det_equals") (ha : argValue b a = some body) (c : Value) (q : Rat)
    (hc : argValue b c = some (.num q)) :
    (solverAt (modelOf mods) (n + 1)).solve (query1 "det_equals" [a, c]) b w =
      ((solverAt (modelOf mods) n).solve body b w).map fun r => .rows (if (r.len : Rat) = q then [b] else []) := by
  rw [solve_core hp rfl (by decide)]
  simp only [coreDetEquals]
  core_eval
  rw [ha, hc]
  simp only [Option.getD_some, M.bind_run]
  cases (solverAt (modelOf mods) n).solve body b w with
  | err => rfl
  | oof => rfl
  | ok w' r =>
    have he : extendRow b [a, c] [.none, .none] b false = .ok (b, false) := by
      rw [extendRow_none ha, extendRow_none hc]; rfl
    by_cases h : (r.len : Rat) = q
    · simp [Res.map, h, dedupRows_singleton, resultsOf_one (by rfl) w' he]
    · simp [Res.map, h, dedupRows, resultsOf]

/-- **C14** (`det_greater_than`). -/
theorem C14_det_greater_than (hp : NotDefined mods w "det_greater_than") (ha : argValue b a = some body) (c : Value)
    (q : Rat) (hc : argValue b c = some (.num q)) :
    (solverAt (modelOf mods) (n + 1)).solve (query1 "det_greater_than" [a, c]) b w =
      ((solverAt (modelOf mods) n).solve body b w).map fun r => .rows (if q < (r.len : Rat) then [b] else []) := by
  rw [solve_core hp rfl (by decide)]
  simp only [coreDetGreaterThan]
  core_eval
  rw [ha, hc]
  simp only [Option.getD_some, M.bind_run, numOf, M.lift]
  cases (solverAt (modelOf mods) n).solve body b w with
  | err => rfl
  | oof => rfl
  | ok w' r =>
    have he : extendRow b [a, c] [.none, .none] b false = .ok (b, false) := by
      rw [extendRow_none ha, extendRow_none hc]; rfl
    by_cases h : q < (r.len : Rat)
    · simp [Res.map, M.pure, h, dedupRows_singleton, resultsOf_one (by rfl) w' he]
    · simp [Res.map, M.pure, h, dedupRows, resultsOf]

/-- **C14** (`det_less_than`). -/
theorem C14_det_less_than (hp : NotDefined mods w "det_less_than") (ha : argValue b a = some body) (c : Value)
    (q : Rat) (hc : argValue b c = some (.num q)) :
    (solverAt (modelOf mods) (n + 1)).solve (query1 "det_less_than" [a, c]) b w =
      ((solverAt (modelOf mods) n).solve body b w).map fun r => .rows (if (r.len : Rat) < q then [b] else []) := by
  rw [solve_core hp rfl (by decide)]
  simp only [coreDetLessThan]
  core_eval
  rw [ha, hc]
  simp only [Option.getD_some, M.bind_run, numOf, M.lift]
  cases (solverAt (modelOf mods) n).solve body b w with
  | err => rfl
  | oof => rfl
  | ok w' r =>
    have he : extendRow b [a, c] [.none, .none] b false = .ok (b, false) := by
      rw [extendRow_none ha, extendRow_none hc]; rfl
    by_cases h : (r.len : Rat) < q
    · simp [Res.map, M.pure, h, dedupRows_singleton, resultsOf_one (by rfl) w' he]
    · simp [Res.map, M.pure, h, dedupRows, resultsOf]

/-- **C14** (negation witness): with a variable that is already bound, `count` does not compare: the query
`count(N, [])` succeeds although `N` is 7 and the body has one answer. -/
theorem C14_count_bound_not_checked :
    (solverAt (modelOf ([] : List (Module Unit))) 2).solve (query1 "count" [.var "N", .list []]) [("N", .num 7)] () =
      .ok () (.rows [[("N", .num 7)]]) := by decide +kernel

end C14

example : (solverAt (modelOf [tableModule Unit Ex.db]) 2).solve
      (query1 "count" [.var "N", .list [.tuple [.str "parent", .var "X", .var "Y"]]]) [("X", .str "bob")] () =
    .ok () (.rows [[("X", .str "bob"), ("N", .num 2)]]) := by decide +kernel

/-! ## C60 -/

section C60
variable (mods : List (Module W)) (n : Nat) (w : W) (b : Binding) (a1 a2 : Value)

/-- **C60** (`equals`, both sides have a value): succeeds iff the values are equal, and binds nothing. -/
theorem C60_equals_bound (hp : NotDefined mods w "equals") (v1 v2 : Value) (h1 : argValue b a1 = some v1)
    (h2 : argValue b a2 = some v2) (hn1 : v1 ≠ .none) (hn2 : v2 ≠ .none) :
    (solverAt (modelOf mods) (n + 1)).solve (query1 "equals" [a1, a2]) b w =
      .ok w (.rows (if v1 = v2 then [b] else [])) := by
  rw [solve_core hp rfl (by decide)]
  simp only [coreEquals]
  core_eval
  rw [h1, h2]
  simp only [Option.getD_some, M.bind_run, hn1, hn2, if_false, M.pure_run]
  by_cases h : v1 = v2
  · subst h
    have he : extendRow b [a1, a2] [v1, v1] b false = .ok (b, false) := by
      rw [extendRow_same b h1, extendRow_same b h2]; rfl
    simp [dedupRows_singleton, resultsOf_one (by rfl) w he]
  · simp [h, dedupRows, resultsOf]

/-- **C60** (`equals`, one new variable): one answer, the variable bound to the other side's value. -/
theorem C60_equals_binds_left (hp : NotDefined mods w "equals") (x : String) (hx : b.get x = none) (v : Value)
    (h2 : argValue b a2 = some v) (hn : v ≠ .none) :
    (solverAt (modelOf mods) (n + 1)).solve (query1 "equals" [.var x, a2]) b w = .ok w (.rows [b.set x v]) := by
  rw [solve_core hp rfl (by decide)]
  simp only [coreEquals]
  core_eval
  rw [show argValue b (.var x) = none from hx, h2]
  simp only [Option.getD_some, Option.getD_none, M.bind_run, hn, if_true, if_false, M.pure_run]
  have he : extendRow b [.var x, a2] [v, v] b false = .ok (b.set x v, false) := by
    rw [extendRow_new hx _ _ _ _ hx, extendRow_same b h2]; rfl
  simp [dedupRows_singleton, resultsOf_one (by rfl) w he]

/-- **C60** (`equals`, one new variable on the right). -/
theorem C60_equals_binds_right (hp : NotDefined mods w "equals") (x : String) (hx : b.get x = none) (v : Value)
    (h1 : argValue b a1 = some v) (hn : v ≠ .none) :
    (solverAt (modelOf mods) (n + 1)).solve (query1 "equals" [a1, .var x]) b w = .ok w (.rows [b.set x v]) := by
  rw [solve_core hp rfl (by decide)]
  simp only [coreEquals]
  core_eval
  rw [show argValue b (.var x) = none from hx, h1]
  simp only [Option.getD_some, Option.getD_none, M.bind_run, hn, if_true, if_false, M.pure_run]
  have he : extendRow b [a1, .var x] [v, v] b false = .ok (b.set x v, false) := by
    rw [extendRow_same b h1, extendRow_new hx _ _ _ _ hx]; rfl
  simp [dedupRows_singleton, resultsOf_one (by rfl) w he]

/-- **C60** (`equals` of two unbound variables raises). -/
theorem C60_equals_unbound (hp : NotDefined mods w "equals") (x y : String) (hx : b.get x = none) (hy : b.get y = none) :
    ∃ msg, (solverAt (modelOf mods) (n + 1)).solve (query1 "equals" [.var x, .var y]) b w = .err w (.exception msg) := by
  refine ⟨"== is called with two variables", ?_⟩
  rw [solve_core hp rfl (by decide)]
  simp only [coreEquals]
  core_eval
  rw [show argValue b (.var x) = none from hx, show argValue b (.var y) = none from hy]
  rfl

/-- **C60** (`greater_than`, `less_than` on numbers): succeed iff the relation holds, and bind nothing. -/
theorem C60_compare_numbers (hg : NotDefined mods w "greater_than") (hl : NotDefined mods w "less_than") (q1 q2 : Rat)
    (h1 : argValue b a1 = some (.num q1)) (h2 : argValue b a2 = some (.num q2)) :
    (solverAt (modelOf mods) (n + 1)).solve (query1 "greater_than" [a1, a2]) b w =
        .ok w (.rows (if q1 > q2 then [b] else [])) ∧
    (solverAt (modelOf mods) (n + 1)).solve (query1 "less_than" [a1, a2]) b w =
        .ok w (.rows (if q1 < q2 then [b] else [])) := by
  have he : extendRow b [a1, a2] [.num q1, .num q2] b false = .ok (b, false) := by
    rw [extendRow_same b h1, extendRow_same b h2]; rfl
  constructor
  · rw [solve_core hg rfl (by decide)]
    simp only [coreGreaterThan]
    core_eval
    rw [h1, h2]
    by_cases h : q2 < q1
    · simp [pyLt, M.lift, M.pure, h, M.bind_run, dedupRows_singleton, resultsOf_one (by rfl) w he]
    · simp [pyLt, M.lift, M.pure, h, M.bind_run, dedupRows, resultsOf]
  · rw [solve_core hl rfl (by decide)]
    simp only [coreLessThan]
    core_eval
    rw [h1, h2]
    by_cases h : q1 < q2
    · simp [pyLt, M.lift, M.pure, h, M.bind_run, dedupRows_singleton, resultsOf_one (by rfl) w he]
    · simp [pyLt, M.lift, M.pure, h, M.bind_run, dedupRows, resultsOf]

/-- **C60** (comparison with an unbound operand raises). -/
theorem C60_compare_unbound (hg : NotDefined mods w "greater_than") (hl : NotDefined mods w "less_than")
    (h : argValue b a1 = none ∨ argValue b a2 = none) :
    (∃ m, (solverAt (modelOf mods) (n + 1)).solve (query1 "greater_than" [a1, a2]) b w = .err w (.exception m)) ∧
    (∃ m, (solverAt (modelOf mods) (n + 1)).solve (query1 "less_than" [a1, a2]) b w = .err w (.exception m)) := by
  rw [solve_core hg rfl (by decide), solve_core hl rfl (by decide)]
  simp only [coreGreaterThan, coreLessThan]
  core_eval
  by_cases h1 : (argValue b a1).getD .none = .none
  · simp only [h1, if_true]; exact ⟨⟨_, rfl⟩, ⟨_, rfl⟩⟩
  · have h2 : argValue b a2 = none := by
      rcases h with h | h
      · rw [h] at h1; simp at h1
      · exact h
    simp only [h1, h2, if_false, Option.getD_none, if_true]; exact ⟨⟨_, rfl⟩, ⟨_, rfl⟩⟩

/-- **C60** (`let`): binds a new variable to the value; `multiply` binds the product. -/
theorem C60_let (hp : NotDefined mods w "let") (x : String) (hx : b.get x = none) (v : Value)
    (h2 : argValue b a2 = some v) :
    (solverAt (modelOf mods) (n + 1)).solve (query1 "let" [.var x, a2]) b w = .ok w (.rows [b.set x v]) := by
  rw [solve_core hp rfl (by decide)]
  simp only [coreLet]
  core_eval
  rw [h2]
  simp only [Option.getD_some]
  have he : extendRow b [.var x, a2] [v, v] b false = .ok (b.set x v, false) := by
    rw [extendRow_new hx _ _ _ _ hx, extendRow_same b h2]; rfl
  simp [dedupRows_singleton, resultsOf_one (by rfl) w he]

/-- **C60** (`multiply`): binds a new variable to the product. -/
theorem C60_multiply (hp : NotDefined mods w "multiply") (x : String) (hx : b.get x = none) (q1 q2 : Rat)
    (h1 : argValue b a1 = some (.num q1)) (h2 : argValue b a2 = some (.num q2)) :
    (solverAt (modelOf mods) (n + 1)).solve (query1 "multiply" [a1, a2, .var x]) b w =
      .ok w (.rows [b.set x (.num (q1 * q2))]) := by
  rw [solve_core hp rfl (by decide)]
  simp only [coreMultiply]
  core_eval
  rw [h1, h2]
  simp only [Option.getD_some]
  have he : extendRow b [a1, a2, .var x] [.none, .none, .num (q1 * q2)] b false =
      .ok (b.set x (.num (q1 * q2)), false) := by
    rw [extendRow_none h1, extendRow_none h2, extendRow_new hx _ _ _ _ hx]; rfl
  simp [dedupRows_singleton, resultsOf_one (by rfl) w he]

end C60

example : (solverAt (modelOf ([] : List (Module Unit))) 1).solve (query1 "multiply" [.var "A", .num (1/2), .var "P"])
      [("A", .num 6)] () = .ok () (.rows [[("A", .num 6), ("P", .num 3)]]) := by decide +kernel

example : argValue [("A", .num 6)] (.var "A") = some (.num 6) ∧ argValue [("A", .num 6)] (.num 2) = some (.num 2) ∧
    NotDefined ([] : List (Module Unit)) () "less_than" := by
  refine ⟨by decide +kernel, by decide +kernel, ?_⟩
  intro m hm; simp at hm

end Verif

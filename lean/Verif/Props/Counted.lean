import Verif.Inference
import Verif.Props.Core2
import Verif.Props.Core3

/-!
# C89. Answers that are only counted

A relation may return a `ResultIterator` instead of a list of rows: an object that knows how many answers there are, and that gives texts
instead of bindings when it is looped over. The predicates that only count the answers (`count`, `percentage`, `not`, `none`, `scoped`, ...)
work as they do for a list of as many answers (C13, C14, C15). This file is about the predicates that look into the answers.
-/

set_option linter.unusedSimpArgs false

namespace Verif

variable {W : Type}

/-- The text `s` is a part of the text `t`. -/
def PartOf (s : String) (t : List Char) : Prop := ∃ before after, t = before ++ s.toList ++ after

theorem partOf_iff {s : String} {t : List Char} : s.toList <:+: t ↔ PartOf s t :=
  ⟨fun ⟨a, b, h⟩ => ⟨a, b, h.symm⟩, fun ⟨a, b, h⟩ => ⟨a, b, h.symm⟩⟩

section C89
variable (mods : List (Module W)) (n : Nat) (w w' : W) (b : Binding) (a0 a a2 body : Value) (r : String) (single : List Value) (k : Nat)

/-- **C89** (aggregates) If there are counted answers, looking for the value of a variable in them raises a `TypeError`. -/
theorem C89_aggregate_raises (x e : String) (ha : argValue b a = some body)
    (hb : (solverAt (modelOf mods) n).solve body b w = .ok w' (.iter single (k + 1))) (p : String) (hp : NotDefined mods w p)
    (hpp : p ∈ ["sum", "avg", "arg_min", "arg_max"]) :
    (solverAt (modelOf mods) (n + 1)).solve (query1 p [.var x, .var e, a]) b w = .err w' .typeError := by
  simp only [List.mem_cons, List.not_mem_nil, or_false] at hpp
  rcases hpp with rfl | rfl | rfl | rfl
  · rw [solve_core hp rfl (by decide)]
    simp only [coreSum]
    core_eval
    rw [ha]
    simp [M.bind_run, hb, iterSol, nameOf, M.throw]
  · rw [solve_core hp rfl (by decide)]
    simp only [coreAvg]
    core_eval
    rw [ha]
    simp [M.bind_run, hb, iterSol, nameOf, M.throw, SolOut.len]
  · rw [solve_core hp rfl (by decide)]
    simp only [coreArgMin, coreArg]
    core_eval
    rw [ha]
    simp [M.bind_run, hb, iterSol, nameOf, M.throw, SolOut.len]
  · rw [solve_core hp rfl (by decide)]
    simp only [coreArgMax, coreArg]
    core_eval
    rw [ha]
    simp [M.bind_run, hb, iterSol, nameOf, M.throw, SolOut.len]

/-- **C89** (`sum` of nothing) The sum over zero counted answers is 0. -/
theorem C89_sum_nothing (x e : String) (hxe : x ≠ e) (hx : b.get x = none) (ha : argValue b a = some body)
    (hb : (solverAt (modelOf mods) n).solve body b w = .ok w' (.iter single 0)) (hp : NotDefined mods w "sum") :
    ∃ b', (solverAt (modelOf mods) (n + 1)).solve (query1 "sum" [.var x, .var e, a]) b w = .ok w' (.rows [b']) ∧
      b'.get x = some (.num 0) ∧ ∀ y, y ≠ x → y ≠ e → b'.get y = b.get y := by
  obtain ⟨b', h1, h2, h3⟩ := extendRow_agg b hxe hx ha (.num 0)
  refine ⟨b', ?_, h2, h3⟩
  rw [solve_core hp rfl (by decide)]
  simp only [coreSum]
  core_eval
  rw [ha]
  simp only [Option.getD_some, M.bind_run, hb, iterSol, M.pure_run, sumLoop]
  simp [M.lift, M.pure, dedupRows_singleton, resultsOf_one (by rfl) w' h1]

/-- **C89** (`all`) Over counted entities `all` raises a `TypeError` if there are any, and has no answer if there are none. -/
theorem C89_all (x : String) (ha : argValue b a = some body) (h2 : argValue b a2 = some body')
    (hb : (solverAt (modelOf mods) n).solve body b w = .ok w' (.iter single k)) (hp : NotDefined mods w "all") :
    (solverAt (modelOf mods) (n + 1)).solve (query1 "all" [.var x, a, a2]) b w = if k = 0 then .ok w' (.rows []) else .err w' .typeError := by
  rw [solve_core hp rfl (by decide)]
  simp only [coreAll]
  core_eval
  rw [ha, h2]
  cases k with
  | zero => simp [M.bind_run, hb, iterSol, lookupAll, orderedSet, M.lift, M.pure, M.pure_run, dedupRows, resultsOf]
  | succ k => simp [M.bind_run, hb, iterSol, nameOf, M.throw]

theorem findAllTexts_absent {x : String} {ts : List (List Char)} (h : ∀ t ∈ ts, ¬ PartOf x t) (acc : List Value) :
    findAllTexts (.str x) ts acc = .ok acc := by
  induction ts with
  | nil => rfl
  | cons t ts ih =>
    have ht : ¬ x.toList <:+: t := fun h' => h t (by simp) (partOf_iff.1 h')
    simp only [findAllTexts, missingIn, if_neg ht]
    exact ih fun t' ht' => h t' (by simp [ht'])

theorem findAllTexts_present {x : String} {ts : List (List Char)} (h : ∃ t ∈ ts, PartOf x t) (acc : List Value) :
    findAllTexts (.str x) ts acc = .error .typeError := by
  induction ts with
  | nil => simp at h
  | cons t ts ih =>
    by_cases ht : x.toList <:+: t
    · simp only [findAllTexts, missingIn, if_pos ht]
    · simp only [findAllTexts, missingIn, if_neg ht]
      obtain ⟨t', h1, h2⟩ := h
      rcases List.mem_cons.1 h1 with rfl | h1
      · exact absurd (partOf_iff.2 h2) ht
      · exact ih ⟨t', h1, h2⟩

/-- **C89** (`find_all`) Over counted answers `find_all` binds the empty list, however many there are, as long as the name of the variable is not
by accident a part of the text of one of them. -/
theorem C89_find_all_empty (hp : NotDefined mods w "find_all") (x : String) (h0 : argValue b a0 = some (.str x))
    (ha : argValue b a = some body) (hr : b.get r = none)
    (hb : (solverAt (modelOf mods) n).solve body b w = .ok w' (.iter single k)) (hx : ∀ t ∈ resultItems single k, ¬ PartOf x t) :
    (solverAt (modelOf mods) (n + 1)).solve (query1 "find_all" [a0, a, .var r]) b w = .ok w' (.rows [b.set r (.list [])]) := by
  rw [solve_core hp rfl (by decide)]
  simp only [coreFindAll, findAllValues]
  core_eval
  rw [h0, ha]
  simp only [Option.getD_some, M.bind_run, hb, M.pure_run, findAllTexts_absent hx, M.lift, M.pure]
  simp only [dedupRows_singleton]
  rw [resultsOf_one (by rfl) w' (extendRow_find b a0 a body r h0 ha hr _)]
  rfl

/-- **C89** (`find_one`) Likewise `find_one` has no answer. -/
theorem C89_find_one_nothing (hp : NotDefined mods w "find_one") (x : String) (h0 : argValue b a0 = some (.str x))
    (ha : argValue b a = some body)
    (hb : (solverAt (modelOf mods) n).solve body b w = .ok w' (.iter single k)) (hx : ∀ t ∈ resultItems single k, ¬ PartOf x t) :
    (solverAt (modelOf mods) (n + 1)).solve (query1 "find_one" [a0, a, .var r]) b w = .ok w' (.rows []) := by
  rw [solve_core hp rfl (by decide)]
  simp only [coreFindOne, findAllValues]
  core_eval
  rw [h0, ha]
  simp [Option.getD_some, M.bind_run, hb, M.pure_run, findAllTexts_absent hx, M.lift, M.pure, dedupRows, resultsOf]

/-- **C89** (`find_all`, `find_one`) If the name is a part of the text of one of them both raise a `TypeError`. -/
theorem C89_find_raises (p : String) (hpp : p ∈ ["find_all", "find_one"]) (hp : NotDefined mods w p) (x : String)
    (h0 : argValue b a0 = some (.str x)) (ha : argValue b a = some body)
    (hb : (solverAt (modelOf mods) n).solve body b w = .ok w' (.iter single k)) (hx : ∃ t ∈ resultItems single k, PartOf x t) :
    (solverAt (modelOf mods) (n + 1)).solve (query1 p [a0, a, .var r]) b w = .err w' .typeError := by
  simp only [List.mem_cons, List.not_mem_nil, or_false] at hpp
  rcases hpp with rfl | rfl
  · rw [solve_core hp rfl (by decide)]
    simp only [coreFindAll, findAllValues]
    core_eval
    rw [h0, ha]
    simp [Option.getD_some, M.bind_run, hb, M.pure_run, findAllTexts_present hx, M.lift, M.throw]
  · rw [solve_core hp rfl (by decide)]
    simp only [coreFindOne, findAllValues]
    core_eval
    rw [h0, ha]
    simp [Option.getD_some, M.bind_run, hb, M.pure_run, findAllTexts_present hx, M.lift, M.throw]

theorem missingAll_absent {xs : List String} {t : List Char} (h : ∀ x ∈ xs, ¬ PartOf x t) :
    missingAll t (xs.map .str) = .ok (xs.map fun _ => .none) := by
  induction xs with
  | nil => rfl
  | cons x xs ih =>
    have hx : ¬ x.toList <:+: t := fun h' => h x (by simp) (partOf_iff.1 h')
    simp only [List.map_cons, missingAll, missingIn, if_neg hx, ih fun y hy => h y (by simp [hy]), Except.map]

theorem findAllTexts_list {xs : List String} {ts : List (List Char)} (h : ∀ t ∈ ts, ∀ x ∈ xs, ¬ PartOf x t) (acc : List Value) :
    findAllTexts (.list (xs.map .str)) ts acc = .ok ((ts.map fun _ => Value.list (xs.map fun _ => Value.none)).foldl addValue acc) := by
  induction ts generalizing acc with
  | nil => rfl
  | cons t ts ih =>
    simp only [findAllTexts, missingAll_absent (h t (by simp)), List.map_cons, List.foldl_cons]
    exact ih (fun t' ht' => h t' (by simp [ht'])) _

theorem foldl_addValue_same {α : Type} (ts : List α) (v : Value) : (ts.map fun _ => v).foldl addValue [v] = [v] := by
  induction ts with
  | nil => rfl
  | cons t ts ih => simpa [addValue] using ih

/-- **C89** (`find_all`, several variables) Asked for combinations of variables, `find_all` finds one combination, of nothing but `None`, if there are
answers at all. -/
theorem C89_find_all_combination (hp : NotDefined mods w "find_all") (xs : List String) (h0 : argValue b a0 = some (.list (xs.map .str)))
    (ha : argValue b a = some body) (hr : b.get r = none)
    (hb : (solverAt (modelOf mods) n).solve body b w = .ok w' (.iter single k)) (hx : ∀ t ∈ resultItems single k, ∀ x ∈ xs, ¬ PartOf x t) :
    (solverAt (modelOf mods) (n + 1)).solve (query1 "find_all" [a0, a, .var r]) b w =
      .ok w' (.rows [b.set r (.list (if k = 0 then [] else [.list (List.replicate xs.length .none)]))]) := by
  have hv : findAllTexts (.list (xs.map .str)) (resultItems single k) [] =
      .ok (if k = 0 then [] else [.list (List.replicate xs.length .none)]) := by
    rw [findAllTexts_list hx]
    cases k with
    | zero => rfl
    | succ k =>
      obtain ⟨t, ts, e⟩ : ∃ t ts, resultItems single (k + 1) = t :: ts := by
        cases e : resultItems single (k + 1) with
        | nil => simp [resultItems] at e
        | cons t ts => exact ⟨t, ts, rfl⟩
      have hm : (xs.map fun _ => Value.none) = List.replicate xs.length .none := List.map_const' ..
      rw [e, List.map_cons, List.foldl_cons, hm]
      have h1 : addValue [] (.list (List.replicate xs.length .none)) = [.list (List.replicate xs.length .none)] := by simp [addValue]
      rw [h1, foldl_addValue_same, if_neg (Nat.succ_ne_zero k)]
  rw [solve_core hp rfl (by decide)]
  simp only [coreFindAll, findAllValues]
  core_eval
  rw [h0, ha]
  simp only [Option.getD_some, M.bind_run, hb, M.pure_run, hv, M.lift, M.pure]
  simp only [dedupRows_singleton]
  rw [resultsOf_one (by rfl) w' (extendRow_find b a0 a body r h0 ha hr _)]
  rfl

end C89

/-- **C89** (rules) Proving by a rule whose body has counted answers: no answer if the value of a variable of the head is asked for, unless its name
is a part of the text of the first of them (then a `TypeError`). -/
theorem C89_rule_value {rule : Rule} {args : List Value} {solver : SolverApi W} {b rb : Binding} {w w' : W} {single : List Value} {k : Nat}
    {x y : String} {ras as : List Value} (hh : rule.head.tail = .var x :: ras) (hargs : args = .var y :: as)
    (hbind : bindHead b rule.head.tail args (b.without rule.variables) = some rb) (he : emptyBody rule.body = false)
    (hb : solver.solve rule.body rb w = .ok w' (.iter single (k + 1))) :
    solveRule rule args solver b w =
      if x.toList <:+: strRow single ++ ['1'] then .err w' .typeError else .ok w' [] := by
  obtain ⟨t, ts, e, et⟩ : ∃ t ts, resultItems single (k + 1) = t :: ts ∧ t = strRow single ++ ['1'] := by
    refine ⟨strRow single ++ ['1'], ((List.range k).map Nat.succ).map fun i => strRow single ++ showNat (i + 1), ?_, rfl⟩
    have h1 : showNat 1 = ['1'] := by decide +kernel
    simp [resultItems, List.range_succ_eq_map, h1]
  rw [← et]
  have hr : textRows rule.head.tail args (resultItems single (k + 1)) = if x.toList <:+: t then .error .typeError else .ok none := by
    rw [e, hh, hargs]
    by_cases h : x.toList <:+: t <;> simp [textRows, textRow, h]
  simp only [solveRule, hbind]
  rw [if_neg (by simp [he]), M.bind_run, hb]
  simp only [ruleRows, hr]
  by_cases h : x.toList <:+: t <;> simp [h, M.lift, M.pure, M.throw, M.bind_run]

/-- The rows a rule gives without a value of a variable being asked for: each argument, or the constant of the head where it is a variable (specification). -/
inductive GivenRow : List Value → List Value → List Value → Prop
  | nil : GivenRow [] [] []
  | value {ra a ras as row} : (∀ x, a ≠ .var x) → GivenRow ras as row → GivenRow (ra :: ras) (a :: as) (a :: row)
  | constant {c x ras as row} : (∀ y, c ≠ .var y) → GivenRow ras as row → GivenRow (c :: ras) (.var x :: as) (c :: row)

theorem textRow_given {t : List Char} {ras as row : List Value} (h : GivenRow ras as row) : textRow t ras as = .ok (some row) := by
  induction h with
  | nil => rfl
  | @value ra a ras as row ha _ ih =>
    cases a with
    | var x => exact absurd rfl (ha x)
    | _ => simp [textRow, ih, Except.map]
  | @constant c x ras as row hc _ ih =>
    cases c with
    | var x => exact absurd rfl (hc x)
    | _ => simp [textRow, ih, Except.map]

theorem textRows_given {ras as row : List Value} (h : GivenRow ras as row) (ts : List (List Char)) :
    textRows ras as ts = .ok (some (ts.map fun _ => row)) := by
  induction ts with
  | nil => rfl
  | cons t ts ih => simp [textRows, textRow_given h, ih, Except.map]

/-- **C89** (rules, no value asked for) If each argument has a value, or a constant in its place in the head, the rule has as many rows as there are counted
answers, all of them these values and constants. -/
theorem C89_rule_given {rule : Rule} {args row : List Value} {solver : SolverApi W} {b rb : Binding} {w w' : W} {single : List Value} {k : Nat}
    (hargs : GivenRow rule.head.tail args row)
    (hbind : bindHead b rule.head.tail args (b.without rule.variables) = some rb) (he : emptyBody rule.body = false)
    (hb : solver.solve rule.body rb w = .ok w' (.iter single k)) :
    solveRule rule args solver b w = .ok w' (List.replicate k row) := by
  have hrow : ((resultItems single k).map fun _ => row) = List.replicate k row := by
    rw [List.map_const']
    simp [resultItems]
  simp only [solveRule, hbind]
  rw [if_neg (by simp [he]), M.bind_run, hb]
  simp [ruleRows, textRows_given hargs, M.lift, M.pure, M.bind_run, hrow]

namespace CountedEx

/-- A module with one relation, `part(X, Y)`, that has 30 counted answers (like `have` in `tests/integration/sir/SIRModule.py:92-119`). -/
def module_ : Module Unit where
  relations _ p := if p = "part" then some { predicate := "part", query := fun _ _ => pure (.iter [.none, .none] 30) } else none

def parts : Value := .list [.tuple [.str "part", .var "X", .var "Y"]]

def api : Nat → SolverApi Unit := solverAt (modelOf [module_])

example : (api 1).solve parts [] () = .ok () (.iter [.none, .none] 30) ∧
    (api 2).solve (query1 "count" [.var "C", parts]) [] () = .ok () (.rows [[("C", .num 30)]]) ∧
    (api 2).solve (query1 "sum" [.var "C", .var "X", parts]) [] () = .err () .typeError ∧
    (api 2).solve (query1 "all" [.var "X", parts, parts]) [] () = .err () .typeError ∧
    (api 2).solve (query1 "find_all" [.str "X", parts, .var "L"]) [] () = .ok () (.rows [[("L", .list [])]]) ∧
    (api 2).solve (query1 "find_one" [.str "X", parts, .var "L"]) [] () = .ok () (.rows []) ∧
    (api 2).solve (query1 "find_all" [.list [.str "X", .str "Y"], parts, .var "L"]) [] () =
      .ok () (.rows [[("L", .list [.list [.none, .none]])]]) ∧
    (api 2).solve (query1 "find_all" [.str "N", parts, .var "L"]) [] () = .err () .typeError := by decide +kernel

example : (∀ t ∈ resultItems [.none, .none] 30, ¬ PartOf "X" t) ∧ ∃ t ∈ resultItems [.none, .none] 30, PartOf "N" t := by
  simp only [← partOf_iff]
  decide +kernel

def rule : Rule := ⟨[.str "has", .var "A", .var "B"], .list [.tuple [.str "part", .var "A", .var "B"]]⟩

example : solveRule rule [.str "fist", .str "finger"] (api 1) [] () = .ok () (List.replicate 30 [.str "fist", .str "finger"]) ∧
    solveRule rule [.var "P", .str "finger"] (api 1) [] () = .ok () [] := by decide +kernel

/-- With a constant in the head. -/
def fists : Rule := ⟨[.str "has", .str "fist", .var "B"], .list [.tuple [.str "part", .str "fist", .var "B"]]⟩

example : solveRule fists [.var "P", .str "finger"] (api 1) [] () = .ok () (List.replicate 30 [.str "fist", .str "finger"]) :=
  C89_rule_given (rule := fists) (.constant (by simp) (.value (by simp) .nil)) (rb := [("B", .str "finger")]) (by decide +kernel) rfl
    (b := []) (single := [.none, .none]) (by decide +kernel)

end CountedEx

end Verif

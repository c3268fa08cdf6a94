import Verif.Core
import Verif.DedupLemmas

/-!
# Lemmas about the relations of the core module as seen through `Solver.solve`
-/

namespace Verif

variable {W : Type}

/-- Apply a function to a result. -/
def Res.map {α β : Type} (f : α → β) : Res W α → Res W β
  | .ok w a => .ok w (f a)
  | .err w e => .err w e
  | .oof => .oof

/-- No module other than the core module defines the predicate (specification only). -/
def NotDefined (mods : List (Module W)) (w : W) (p : String) : Prop := ∀ m ∈ mods, m.relations w p = none

theorem findRelations_core {mods : List (Module W)} {w : W} {p : String} {f : List Value → Ctx W → M W QOut}
    (hp : NotDefined mods w p) (hf : (coreTable W).get p = some f) :
    findRelations (modelOf mods) w p = [{ predicate := p, query := f }] := by
  have h1 : (coreModule W).relations w p = some { predicate := p, query := f } := by simp [coreModule, hf]
  have h2 : mods.filterMap (fun m => m.relations w p) = [] := by
    rw [List.filterMap_eq_nil_iff]; exact hp
  simp only [findRelations, modelOf, List.filterMap_cons, h1, h2]

/-- A query of a single core atom: run its function, then make bindings of the rows. -/
theorem solve_core {mods : List (Module W)} {w : W} {p : String} {f : List Value → Ctx W → M W QOut}
    (hp : NotDefined mods w p) (hf : (coreTable W).get p = some f) (hd : p ≠ "$disjunction") (n : Nat)
    (args : List Value) (b : Binding) :
    (solverAt (modelOf mods) (n + 1)).solve (.list [.tuple (.str p :: args)]) b w =
      (match f (dbValues args b) { predicate := p, columns := [], arguments := args, binding := b,
                                   solver := solverAt (modelOf mods) n } w with
        | .ok w' (.rows rows) => resultsOf b args (.rows (dedupRows [] rows)) w'
        | .ok w' (.iter s k) => .ok w' (.iter s k)
        | .err w' e => .err w' e
        | .oof => .oof) := by
  show solveSingle.go (solverAt (modelOf mods) n) (modelOf mods) b p args w = _
  simp only [solveSingle.go, hd, if_false, findRelationValues]
  rw [M.bind_run, M.bind_ok (M.gets_run _ w), findRelations_core hp hf]
  simp only [queryRelations, M.bind_run]
  cases f (dbValues args b) { predicate := p, columns := [], arguments := args, binding := b,
                              solver := solverAt (modelOf mods) n } w with
  | err => rfl
  | oof => rfl
  | ok w' q =>
    cases q with
    | iter k => rfl
    | rows rows => simp

/-- The value of an argument of an atom under a binding, if it has one (specification only). -/
def argValue (b : Binding) : Value → Option Value
  | .var x => b.get x
  | a => some a

theorem dbValues_cons (a : Value) (args : List Value) (b : Binding) :
    dbValues (a :: args) b = (argValue b a).getD .none :: dbValues args b := by
  cases a <;> simp [dbValues, argValue]
  cases b.get _ <;> rfl

theorem dbValues_nil (b : Binding) : dbValues [] b = [] := rfl

/-- Arguments that already have a value accept a `None` in the row. -/
theorem extendRow_none {a : Value} {b : Binding} {v : Value} (h : argValue b a = some v) (args row : List Value)
    (result : Binding) (c : Bool) :
    extendRow b (a :: args) (.none :: row) result c = extendRow b args row result c := by
  cases ha : a.isVar with
  | false => rw [extendRow_cons_const _ _ ha]; simp
  | true =>
    cases a <;> simp only [Value.isVar, Bool.false_eq_true] at ha
    rename_i x
    rw [extendRow_cons_var]
    have : b.has x = true := (Dict.has_iff b x).2 ⟨v, h⟩
    simp [this]

/-- A new variable takes its value from the row. -/
theorem extendRow_new {x : String} {b : Binding} (h : b.get x = none) (args row : List Value) (v : Value)
    (result : Binding) (hr : result.get x = none) (c : Bool) :
    extendRow b (.var x :: args) (v :: row) result c = extendRow b args row (result.set x v) c := by
  rw [extendRow_cons_var]
  have : b.has x = false := (Dict.has_false_iff b x).2 h
  simp [this, hr]

/-- An argument that has a value accepts that value in the row. -/
theorem extendRow_same (b : Binding) {a v : Value} (ha : argValue b a = some v) (args row : List Value) (result : Binding) (c : Bool) :
    extendRow b (a :: args) (v :: row) result c = extendRow b args row result c := by
  cases hav : a.isVar with
  | false =>
    have : a = v := by cases a <;> simp_all [argValue, Value.isVar]
    rw [extendRow_cons_const _ _ hav]
    simp [this]
  | true =>
    cases a <;> simp only [Value.isVar, Bool.false_eq_true] at hav
    rename_i x
    rw [extendRow_cons_var]
    simp [(Dict.has_iff b x).2 ⟨v, ha⟩]

theorem dedupRows_singleton (r : List Value) : dedupRows [] [r] = [r] := by simp [dedupRows]

/-- One row of the right length. -/
theorem resultsOf_one {b : Binding} {args row : List Value} (hl : row.length = args.length) (w : W) {b' : Binding}
    {c : Bool} (h : extendRow b args row b false = .ok (b', c)) :
    resultsOf b args (.rows [row]) w = .ok w (.rows (if c then [] else [b'])) := by
  simp only [resultsOf, hl, ne_eq, not_true, if_false, createResults, h, M.lift, Except.map]
  rfl

theorem resultsOf_nil (b : Binding) (args : List Value) (w : W) : resultsOf b args (.rows []) w = .ok w (.rows []) := rfl

end Verif

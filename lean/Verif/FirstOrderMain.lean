import Verif.FirstOrderLemmas
import Verif.DatalogTerm

/-!
# The solver gives exactly the answers to queries with negation, quantifiers, numbers and alternatives
-/

set_option linter.unusedSimpArgs false

namespace Verif

variable {W : Type}

/-- The relations of the core module that the queries use. -/
def coreNames : List String := ["not", "none", "scoped", "det_equals", "det_greater_than", "det_less_than", "all", "count", "equals",
  "greater_than", "less_than", "let", "multiply"]

theorem given_value {b : Binding} (hb : PlainB b) {v : Value} (h : Given (dom b) v) :
    ∃ u, argValue b v = some u ∧ Plain u ∧ ∀ σ : Assignment, Agrees σ b → inst σ v = u := by
  cases v with
  | var x =>
    obtain ⟨u, hu⟩ := (Dict.has_iff _ _).1 h
    exact ⟨u, hu, hb x u hu, fun σ hσ => hσ x u hu⟩
  | _ => exact ⟨_, rfl, h, fun _ _ => rfl⟩

theorem argsOk_value {b : Binding} (hb : PlainB b) {v : Value} (h : v.isVar = false → Plain v) {u : Value} (hu : argValue b v = some u) :
    Plain u ∧ ∀ σ : Assignment, Agrees σ b → inst σ v = u := by
  cases v with
  | var x => exact ⟨hb x u hu, fun σ hσ => hσ x u hu⟩
  | _ =>
    simp only [argValue, Option.some.injEq] at hu
    subst hu
    exact ⟨h rfl, fun _ _ => rfl⟩

theorem argValue_none {b : Binding} {v : Value} (h : argValue b v = none) : ∃ x, v = .var x ∧ b.get x = none := by
  cases v <;> simp [argValue] at h
  exact ⟨_, rfl, h⟩

theorem dom_set (b : Binding) (x : String) (v : Value) : dom (b.set x v) = Known.more (dom b) [x] := by
  funext y
  exact propext (has_set y)

section
variable {mods : List (Module W)} {w : W}

theorem run_greater {n : Nat} {b : Binding} (hp : NotDefined mods w "greater_than") {a c u v : Value} (ha : argValue b a = some u)
    (hc : argValue b c = some v) (hu : u ≠ .none) (hv : v ≠ .none) :
    (solverAt (modelOf mods) (n + 1)).solve (query1 "greater_than" [a, c]) b w =
      (match pyLt v u with
      | .ok t => .ok w (.rows (if t = true then [b] else []))
      | .error e => .err w e) := by
  rw [solve_core hp rfl (by decide)]
  simp only [coreGreaterThan]
  core_eval
  rw [ha, hc]
  simp only [Option.getD_some, hu, hv, if_false, M.bind_run]
  have he : extendRow b [a, c] [u, v] b false = .ok (b, false) := by
    rw [extendRow_same b ha, extendRow_same b hc]; rfl
  cases pyLt v u with
  | error e => rfl
  | ok t =>
    cases t with
    | false => simp [M.lift, dedupRows, resultsOf, M.pure_run']
    | true => simp [M.lift, dedupRows_singleton, resultsOf_one (by rfl) w he, M.pure_run']

theorem run_less {n : Nat} {b : Binding} (hp : NotDefined mods w "less_than") {a c u v : Value} (ha : argValue b a = some u)
    (hc : argValue b c = some v) (hu : u ≠ .none) (hv : v ≠ .none) :
    (solverAt (modelOf mods) (n + 1)).solve (query1 "less_than" [a, c]) b w =
      (match pyLt u v with
      | .ok t => .ok w (.rows (if t = true then [b] else []))
      | .error e => .err w e) := by
  rw [solve_core hp rfl (by decide)]
  simp only [coreLessThan]
  core_eval
  rw [ha, hc]
  simp only [Option.getD_some, hu, hv, if_false, M.bind_run]
  have he : extendRow b [a, c] [u, v] b false = .ok (b, false) := by
    rw [extendRow_same b ha, extendRow_same b hc]; rfl
  cases pyLt u v with
  | error e => rfl
  | ok t =>
    cases t with
    | false => simp [M.lift, dedupRows, resultsOf, M.pure_run']
    | true => simp [M.lift, dedupRows_singleton, resultsOf_one (by rfl) w he, M.pure_run']

theorem run_det_equals {n : Nat} {b : Binding} (hp : NotDefined mods w "det_equals") {a body c v : Value} (ha : argValue b a = some body)
    (hc : argValue b c = some v) :
    (solverAt (modelOf mods) (n + 1)).solve (query1 "det_equals" [a, c]) b w =
      ((solverAt (modelOf mods) n).solve body b w).map fun r => .rows (if v = .num r.len then [b] else []) := by
  rw [solve_core hp rfl (by decide)]
  simp only [coreDetEquals]
  core_eval
  rw [ha, hc]
  simp only [Option.getD_some, M.bind_run]
  cases (solverAt (modelOf mods) n).solve body b w with
  | err => rfl
  | oof => rfl
  | ok w' r =>
    have he : extendRow b [a, c] [.none, .none] b false = .ok (b, false) := by
      rw [extendRow_none ha, extendRow_none hc]; rfl
    by_cases h : v = .num (r.len : Rat)
    · simp [Res.map, h, dedupRows_singleton, resultsOf_one (by rfl) w' he]
    · simp [Res.map, h, Ne.symm h, dedupRows, resultsOf]

theorem det_greater_num {n : Nat} {b : Binding} (hp : NotDefined mods w "det_greater_than") {a body c v : Value}
    (ha : argValue b a = some body) (hc : argValue b c = some v) {w' : W} {out : SolOut}
    (h : (solverAt (modelOf mods) (n + 1)).solve (query1 "det_greater_than" [a, c]) b w = .ok w' out) : ∃ q, v = .num q := by
  rw [solve_core hp rfl (by decide)] at h
  simp only [coreDetGreaterThan] at h
  simp only [dbValues_cons, dbValues_nil, nth, M.bind_run, M.pure_run, Option.getD_some, ha, hc] at h
  cases hs : (solverAt (modelOf mods) n).solve body b w with
  | err => simp [hs] at h
  | oof => simp [hs] at h
  | ok w1 r =>
    cases v with
    | num q => exact ⟨q, rfl⟩
    | _ => simp [hs, numOf, M.lift] at h

theorem det_less_num {n : Nat} {b : Binding} (hp : NotDefined mods w "det_less_than") {a body c v : Value}
    (ha : argValue b a = some body) (hc : argValue b c = some v) {w' : W} {out : SolOut}
    (h : (solverAt (modelOf mods) (n + 1)).solve (query1 "det_less_than" [a, c]) b w = .ok w' out) : ∃ q, v = .num q := by
  rw [solve_core hp rfl (by decide)] at h
  simp only [coreDetLessThan] at h
  simp only [dbValues_cons, dbValues_nil, nth, M.bind_run, M.pure_run, Option.getD_some, ha, hc] at h
  cases hs : (solverAt (modelOf mods) n).solve body b w with
  | err => simp [hs] at h
  | oof => simp [hs] at h
  | ok w1 r =>
    cases v with
    | num q => exact ⟨q, rfl⟩
    | _ => simp [hs, numOf, M.lift] at h

theorem multiply_num {n : Nat} {b : Binding} (hp : NotDefined mods w "multiply") {a c d u v : Value}
    (ha : argValue b a = some u) (hc : argValue b c = some v) {w' : W} {out : SolOut}
    (h : (solverAt (modelOf mods) (n + 1)).solve (query1 "multiply" [a, c, d]) b w = .ok w' out) : ∃ q r, u = .num q ∧ v = .num r := by
  rw [solve_core hp rfl (by decide)] at h
  simp only [coreMultiply] at h
  simp only [dbValues_cons, dbValues_nil, nth, List.getElem?_cons_zero, List.getElem?_cons_succ, M.bind_run, M.pure_run,
    Option.getD_some, ha, hc] at h
  cases u with
  | num q =>
    cases v with
    | num r => exact ⟨q, r, rfl, rfl⟩
    | _ => simp at h
  | _ => simp at h

theorem map_ok {α β : Type} {r : Res W α} {f : α → β} {w' : W} {o : β} (h : r.map f = .ok w' o) : ∃ a, r = .ok w' a ∧ o = f a := by
  cases r with
  | ok w1 a =>
    simp only [Res.map, Res.ok.injEq] at h
    exact ⟨a, by rw [h.1], h.2.symm⟩
  | err => simp [Res.map] at h
  | oof => simp [Res.map] at h

/-! ## `all` -/

theorem orderedSet_hashable {xs acc out : List Value} (h : orderedSet xs acc = .ok out) : ∀ x ∈ xs, hashable x = true := by
  induction xs generalizing acc with
  | nil => simp
  | cons y ys ih =>
    simp only [orderedSet] at h
    split at h
    · rename_i hy
      intro x hx
      rcases List.mem_cons.1 hx with rfl | hx
      · exact hy
      · exact ih h x hx
    · simp at h

theorem allLoop_ok {ctx : Ctx W} {x : String} {body : Value} {es : List Value} {w' : W} {acc res : List Value}
    (hw : ∀ e ∈ es, ∀ w1 o, ctx.solver.solve body (ctx.binding.union [(x, e)]) w = .ok w1 o → w1 = w)
    (h : allLoop ctx x body es acc w = .ok w' res) :
    ∀ e ∈ es, ∃ o, ctx.solver.solve body (ctx.binding.union [(x, e)]) w = .ok w o := by
  induction es generalizing acc with
  | nil => simp
  | cons e es ih =>
    simp only [allLoop] at h
    obtain ⟨w1, o, h1, h2⟩ := M.bind_eq_ok.1 h
    obtain rfl := hw e (by simp) _ _ h1
    intro e' he'
    rcases List.mem_cons.1 he' with rfl | he'
    · exact ⟨o, h1⟩
    · exact ih (fun e he => hw e (by simp [he])) h2 e' he'

theorem all_inv {n : Nat} {b : Binding} (hp : NotDefined mods w "all") {x : String} {a1 a2 range body : Value} (ha1 : argValue b a1 = some range)
    (ha2 : argValue b a2 = some body) {w' : W} {out : SolOut}
    (h : (solverAt (modelOf mods) (n + 1)).solve (query1 "all" [.var x, a1, a2]) b w = .ok w' out)
    (hr : ∀ w1 o, (solverAt (modelOf mods) n).solve range b w = .ok w1 o → w1 = w ∧ ∃ rs, o = .rows rs ∧ ∀ b' ∈ rs, b'.has x = true)
    (hw : ∀ e : Value, Plain e → ∀ w1 o, (solverAt (modelOf mods) n).solve body (b.set x e) w = .ok w1 o → w1 = w) :
    ∃ rs, (solverAt (modelOf mods) n).solve range b w = .ok w (.rows rs) ∧
      ((∀ b' ∈ rs, PlainB b') → ∀ b' ∈ rs, ∀ e, b'.get x = some e →
        hashable e = true ∧ ∃ o, (solverAt (modelOf mods) n).solve body (b.set x e) w = .ok w o) := by
  rw [solve_core hp rfl (by decide)] at h
  simp only [coreAll] at h
  simp only [dbValues_cons, dbValues_nil, nth, List.getElem?_cons_zero, List.getElem?_cons_succ, M.bind_run, M.pure_run,
    Option.getD_some, ha1, ha2] at h
  cases hs : (solverAt (modelOf mods) n).solve range b w with
  | err => simp [hs] at h
  | oof => simp [hs] at h
  | ok w1 o =>
    obtain ⟨rfl, rs, rfl, hrs⟩ := hr _ _ hs
    refine ⟨rs, rfl, fun hpl b' hb' e he => ?_⟩
    simp only [hs, iterSol, M.pure_run] at h
    have hg : ∀ b' ∈ rs, b'.get x = some ((b'.get x).getD .none) := by
      intro b1 hb1
      obtain ⟨v, hv⟩ := (Dict.has_iff _ _).1 (hrs b1 hb1)
      rw [hv]; rfl
    rw [lookupAll_eq hg] at h
    simp only [M.lift, M.pure_run'] at h
    have hin : e ∈ rs.map fun b' => (b'.get x).getD .none := List.mem_map.2 ⟨b', hb', by rw [he]; rfl⟩
    cases hos : orderedSet (rs.map fun b' => (b'.get x).getD .none) [] with
    | error er => simp [hos, M.throw_run] at h
    | ok es =>
      have hh := orderedSet_hashable hos
      refine ⟨hh e hin, ?_⟩
      have hes : es = (rs.map fun b' => (b'.get x).getD .none).eraseDups := by
        rw [orderedSet_eq hh, addValue_eraseDups] at hos
        simpa using hos.symm
      have hpe : ∀ e ∈ es, Plain e := by
        intro e1 he1
        rw [hes, List.mem_eraseDups] at he1
        obtain ⟨b1, hb1, rfl⟩ := List.mem_map.1 he1
        obtain ⟨v, hv⟩ := (Dict.has_iff _ _).1 (hrs b1 hb1)
        rw [hv]
        exact hpl b1 hb1 x v hv
      have hmem : e ∈ es := by rw [hes, List.mem_eraseDups]; exact hin
      rw [hos] at h
      simp only [M.pure_run'] at h
      cases es with
      | nil => simp at hmem
      | cons e1 es1 =>
        simp only [nameOf, M.bind_run, M.pure_run'] at h
        cases hl : allLoop { predicate := "all", columns := [], arguments := [.var x, a1, a2], binding := b, solver := solverAt (modelOf mods) n }
            x body (e1 :: es1) [] w1 with
        | err => simp [hl] at h
        | oof => simp [hl] at h
        | ok w2 res => exact allLoop_ok (fun e he w1 o h1 => hw e (hpe e he) w1 o h1) hl e hmem

/-! ## Alternatives -/

theorem altValues_eq (qs : List (List Form)) : altValues qs = qs.map fun q => .list (formValues q) := by
  induction qs with
  | nil => rfl
  | cons q qs ih => simp [altValues, ih]

theorem altsOk_iff {ar : String → Option Nat} {qs : List (List Form)} {B : String → Prop} : AltsOk ar qs B ↔ ∀ q ∈ qs, FormsOk ar q B := by
  induction qs with
  | nil => simp [AltsOk]
  | cons q qs ih => simp [AltsOk, ih]

/-- The first alternative that has answers. -/
theorem disjuncts_exact {api : SolverApi W} {P : Program} {b : Binding} {V : List String} {qs : List (List Form)}
    (hq : ∀ q ∈ qs, ∀ w1 o, api.solve (.list (formValues q)) b w = .ok w1 o →
      w1 = w ∧ ∃ bs, o = .rows bs ∧ Exact (formBinds q) (SatAll P q (dom b)) b bs)
    (hV : ∀ q ∈ qs, ∀ x, Known.more (dom b) (formBinds q) x ↔ Known.more (dom b) V x) {w' : W} {out : SolOut}
    (h : solveDisjuncts api b (altValues qs) w = .ok w' out) :
    w' = w ∧ ∃ bs, out = .rows bs ∧ Exact V (SatFirst P qs (dom b)) b bs := by
  induction qs with
  | nil =>
    simp only [altValues, solveDisjuncts, M.pure_run, Res.ok.injEq] at h
    obtain ⟨rfl, rfl⟩ := h
    exact ⟨rfl, [], rfl, by simp, fun σ _ _ hS => by simp [SatFirst] at hS, by simp [NoDup]⟩
  | cons q qs ih =>
    simp only [altValues, solveDisjuncts] at h
    obtain ⟨w1, o, h1, h2⟩ := M.bind_eq_ok.1 h
    obtain ⟨rfl, bs, rfl, hx⟩ := hq q (by simp) _ _ h1
    have hlen : (SolOut.rows bs).len = bs.length := rfl
    rw [hlen] at h2
    by_cases h0 : bs.length > 0
    · rw [if_pos h0] at h2
      simp only [M.pure_run, Res.ok.injEq] at h2
      obtain ⟨rfl, rfl⟩ := h2
      refine ⟨rfl, bs, rfl, hx.congr (hV q (by simp)) fun σ hp hσ => ?_⟩
      simp only [SatFirst]
      refine ⟨.inl, ?_⟩
      rintro (h3 | ⟨h3, _⟩)
      · exact h3
      · exact absurd ((hx.nonempty hσ).2 (by intro e; rw [e] at h0; simp at h0)) h3
    · rw [if_neg h0] at h2
      have he : bs = [] := by cases bs with
        | nil => rfl
        | cons => simp at h0
      obtain ⟨e1, bs2, e2, hx2⟩ := ih (fun q hq' => hq q (by simp [hq'])) (fun q hq' => hV q (by simp [hq'])) h2
      refine ⟨e1, bs2, e2, hx2.congr (fun _ => Iff.rfl) fun σ hp hσ => ?_⟩
      have hno : ¬ ∃ τ, AgreeOn (dom b) σ τ ∧ SatAll P q (dom b) τ := fun h3 => (hx.nonempty hσ).1 h3 he
      simp only [SatFirst]
      refine ⟨fun h3 => .inr ⟨hno, h3⟩, ?_⟩
      rintro (h3 | ⟨_, h3⟩)
      · exact absurd ⟨σ, ⟨hp, fun _ _ => rfl⟩, h3⟩ hno
      · exact h3

/-! ## The main induction -/

/-- Queries answered at this depth are answered exactly. -/
def FormsExactAt (mods : List (Module W)) (w : W) (ar : String → Option Nat) (calls : Calls) (P : Program) (n : Nat) : Prop :=
  ∀ q b, FormsOk ar q (dom b) → FormsCalled calls q (dom b) → PlainB b → ∀ w1 o,
    (solverAt (modelOf mods) n).solve (.list (formValues q)) b w = .ok w1 o →
      w1 = w ∧ ∃ bs, o = .rows bs ∧ Exact (formBinds q) (SatAll P q (dom b)) b bs

/-- What the parts of a query may rely on: atoms are answered exactly if the queries that they lead to are. -/
structure BaseIn (mods : List (Module W)) (w : W) (ar : String → Option Nat) (calls : Calls) (P : Program) : Prop where
  core : ∀ p ∈ coreNames, NotDefined mods w p
  atom : ∀ n, FormsExactAt mods w ar calls P n → ∀ p args b, ar p = some args.length → calls p (knownAt (dom b) args) → ArgsOk args → PlainB b →
    ∀ w' out, (solverAt (modelOf mods) (n + 1)).solve (query1 p args) b w = .ok w' out →
      w' = w ∧ ∃ bs, out = .rows bs ∧ Exact (argVars args) (fun σ => Derivable P p (args.map (inst σ))) b bs

/-- The same when predicates may be asked in any way, and atoms are answered exactly anyhow. -/
structure Base (mods : List (Module W)) (w : W) (ar : String → Option Nat) (P : Program) : Prop where
  core : ∀ p ∈ coreNames, NotDefined mods w p
  atom : ∀ n p args b, ar p = some args.length → ArgsOk args → PlainB b → ∀ w' out,
    (solverAt (modelOf mods) (n + 1)).solve (query1 p args) b w = .ok w' out →
      w' = w ∧ ∃ bs, out = .rows bs ∧ Exact (argVars args) (fun σ => Derivable P p (args.map (inst σ))) b bs

/-- Predicates may be asked in any way. -/
def anyCall : Calls := fun _ _ => True

mutual
theorem called_any : ∀ (f : Form) (B : String → Prop), f.Called anyCall B
  | .atom p args, B => by simp [Form.Called, anyCall]
  | .neg q, B => by simpa only [Form.Called] using formsCalled_any q B
  | .thereIsNo q, B => by simpa only [Form.Called] using formsCalled_any q B
  | .thereIs q, B => by simpa only [Form.Called] using formsCalled_any q B
  | .exactly q _, B => by simpa only [Form.Called] using formsCalled_any q B
  | .moreThan q _, B => by simpa only [Form.Called] using formsCalled_any q B
  | .fewerThan q _, B => by simpa only [Form.Called] using formsCalled_any q B
  | .all x r q, B => by simpa only [Form.Called] using ⟨formsCalled_any r B, formsCalled_any q _⟩
  | .count _ q, B => by simpa only [Form.Called] using formsCalled_any q B
  | .either qs, B => by simpa only [Form.Called] using altsCalled_any qs B
  | .equals .., B => by simp only [Form.Called]
  | .greater .., B => by simp only [Form.Called]
  | .less .., B => by simp only [Form.Called]
  | .assign .., B => by simp only [Form.Called]
  | .times .., B => by simp only [Form.Called]
theorem formsCalled_any : ∀ (q : List Form) (B : String → Prop), FormsCalled anyCall q B
  | [], _ => by simp only [FormsCalled]
  | f :: fs, B => by simpa only [FormsCalled] using ⟨called_any f B, formsCalled_any fs _⟩
theorem altsCalled_any : ∀ (qs : List (List Form)) (B : String → Prop), AltsCalled anyCall qs B
  | [], _ => by simp only [AltsCalled]
  | q :: qs, B => by simpa only [AltsCalled] using ⟨formsCalled_any q B, altsCalled_any qs B⟩
end

theorem Base.toIn {ar : String → Option Nat} {P : Program} (H : Base mods w ar P) : BaseIn mods w ar anyCall P :=
  ⟨H.core, fun n _ p args b h1 _ h2 h3 w' out h => H.atom n p args b h1 h2 h3 w' out h⟩

theorem altsCalled_iff {calls : Calls} {qs : List (List Form)} {B : String → Prop} : AltsCalled calls qs B ↔ ∀ q ∈ qs, FormsCalled calls q B := by
  induction qs with
  | nil => simp [AltsCalled]
  | cons q qs ih => simp [AltsCalled, ih]

theorem nodup_set {b : Binding} {x : String} {es : List Value} (h : es.Nodup) : NoDup (es.map fun e => b.set x e) := by
  rw [NoDup, List.pairwise_map]
  refine List.Pairwise.imp ?_ h
  intro e1 e2 hne hs
  have := hs x
  simp at this
  exact hne this

theorem form_exact {ar : String → Option Nat} {calls : Calls} {P : Program} (H : BaseIn mods w ar calls P) {n : Nat}
    (ih : FormsExactAt mods w ar calls P n) {f : Form} {b : Binding} (hf : f.Ok ar (dom b)) (hm : f.Called calls (dom b)) (hb : PlainB b) {w' : W} {out : SolOut}
    (h : (solverAt (modelOf mods) (n + 1)).solve (.list [f.toValue]) b w = .ok w' out) :
    w' = w ∧ ∃ bs, out = .rows bs ∧ Exact f.binds (Sat P f (dom b)) b bs := by
  have hlen : ∀ bs, (SolOut.rows bs).len = bs.length := fun _ => rfl
  cases f with
  | atom p args =>
    simp only [Form.Ok] at hf
    simp only [Form.Called] at hm
    obtain ⟨h1, bs, h2, h3⟩ := H.atom n ih p args b hf.1 hm hf.2 hb _ _ (by simpa only [Form.toValue] using h)
    exact ⟨h1, bs, h2, by simpa only [Form.binds, Sat] using h3⟩
  | neg q =>
    simp only [Form.Ok] at hf
    simp only [Form.Called] at hm
    simp only [Form.toValue] at h
    rw [C13_not mods n w _ _ b (H.core _ (by decide)) rfl] at h
    obtain ⟨r, h1, rfl⟩ := map_ok h
    obtain ⟨rfl, bs, rfl, hx⟩ := ih q b hf hm hb _ _ h1
    refine ⟨rfl, _, rfl, exact_test hb fun σ hp hσ => ?_⟩
    simp only [Sat]
    rw [hx.nonempty hσ, hlen]
    cases bs <;> simp
  | thereIsNo q =>
    simp only [Form.Ok] at hf
    simp only [Form.Called] at hm
    simp only [Form.toValue] at h
    rw [C13_none mods n w _ _ b (H.core _ (by decide)) rfl] at h
    obtain ⟨r, h1, rfl⟩ := map_ok h
    obtain ⟨rfl, bs, rfl, hx⟩ := ih q b hf hm hb _ _ h1
    refine ⟨rfl, _, rfl, exact_test hb fun σ hp hσ => ?_⟩
    simp only [Sat]
    rw [hx.nonempty hσ, hlen]
    cases bs <;> simp
  | thereIs q =>
    simp only [Form.Ok] at hf
    simp only [Form.Called] at hm
    simp only [Form.toValue] at h
    rw [C13_scoped mods n w _ _ b (H.core _ (by decide)) rfl] at h
    obtain ⟨r, h1, rfl⟩ := map_ok h
    obtain ⟨rfl, bs, rfl, hx⟩ := ih q b hf hm hb _ _ h1
    refine ⟨rfl, _, rfl, ?_⟩
    rw [← ite_not]
    refine exact_test hb fun σ hp hσ => ?_
    simp only [Sat]
    rw [hx.nonempty hσ, hlen]
    cases bs <;> simp
  | exactly q c =>
    simp only [Form.Ok] at hf
    simp only [Form.Called] at hm
    obtain ⟨v, hv, _, hi⟩ := given_value hb hf.2
    simp only [Form.toValue] at h
    rw [run_det_equals (H.core _ (by decide)) rfl hv] at h
    obtain ⟨r, h1, rfl⟩ := map_ok h
    obtain ⟨rfl, bs, rfl, hx⟩ := ih q b hf.1 hm hb _ _ h1
    refine ⟨rfl, _, rfl, exact_test hb fun σ hp hσ => ?_⟩
    simp only [Sat, hi σ hσ, hx.count_iff hσ, hlen]
    constructor
    · rintro ⟨k, rfl, h⟩; exact h
    · intro h; exact ⟨_, rfl, h⟩
  | moreThan q c =>
    simp only [Form.Ok] at hf
    simp only [Form.Called] at hm
    obtain ⟨v, hv, _, hi⟩ := given_value hb hf.2
    simp only [Form.toValue] at h
    obtain ⟨q1, rfl⟩ := det_greater_num (H.core _ (by decide)) rfl hv h
    rw [C14_det_greater_than mods n w _ _ b (H.core _ (by decide)) rfl _ _ hv] at h
    obtain ⟨r, h1, rfl⟩ := map_ok h
    obtain ⟨rfl, bs, rfl, hx⟩ := ih q b hf.1 hm hb _ _ h1
    refine ⟨rfl, _, rfl, exact_test hb fun σ hp hσ => ?_⟩
    simp only [Sat, hi σ hσ, hx.count_iff hσ, hlen, Value.num.injEq]
    constructor
    · rintro ⟨k, r, rfl, rfl, h⟩; exact h
    · intro h; exact ⟨_, _, rfl, rfl, h⟩
  | fewerThan q c =>
    simp only [Form.Ok] at hf
    simp only [Form.Called] at hm
    obtain ⟨v, hv, _, hi⟩ := given_value hb hf.2
    simp only [Form.toValue] at h
    obtain ⟨q1, rfl⟩ := det_less_num (H.core _ (by decide)) rfl hv h
    rw [C14_det_less_than mods n w _ _ b (H.core _ (by decide)) rfl _ _ hv] at h
    obtain ⟨r, h1, rfl⟩ := map_ok h
    obtain ⟨rfl, bs, rfl, hx⟩ := ih q b hf.1 hm hb _ _ h1
    refine ⟨rfl, _, rfl, exact_test hb fun σ hp hσ => ?_⟩
    simp only [Sat, hi σ hσ, hx.count_iff hσ, hlen, Value.num.injEq]
    constructor
    · rintro ⟨k, r, rfl, rfl, h⟩; exact h
    · intro h; exact ⟨_, _, rfl, rfl, h⟩
  | count x q =>
    simp only [Form.Ok] at hf
    simp only [Form.Called] at hm
    have hx0 : b.get x = .none := (Dict.has_false_iff _ _).1 (by simpa [dom] using hf.1)
    simp only [Form.toValue] at h
    rw [C14_count mods n w _ _ b (H.core _ (by decide)) rfl x hx0] at h
    obtain ⟨r, h1, rfl⟩ := map_ok h
    obtain ⟨rfl, bs, rfl, hx⟩ := ih q b hf.2 hm hb _ _ h1
    refine ⟨rfl, _, rfl, exact_bind hb hx0 ⟨by simp, rfl, rfl⟩ fun σ hp hσ => ?_⟩
    simp only [Sat, hx.count_iff hσ, hlen]
    constructor
    · rintro ⟨k, rfl, h⟩; exact h
    · intro h; exact ⟨_, rfl, h⟩
  | all x r q =>
    simp only [Form.Ok] at hf
    simp only [Form.Called] at hm
    obtain ⟨hnb, hxr, hr, hq⟩ := hf
    have hx0 : b.get x = .none := (Dict.has_false_iff _ _).1 (by simpa [dom] using hnb)
    simp only [Form.toValue] at h
    have hbody : ∀ e : Value, Plain e → ∀ w1 o, (solverAt (modelOf mods) n).solve (.list (formValues q)) (b.set x e) w = .ok w1 o →
        w1 = w ∧ ∃ bs, o = .rows bs ∧ Exact (formBinds q) (SatAll P q (Known.more (dom b) [x])) (b.set x e) bs := by
      intro e he w1 o h1
      have := ih q (b.set x e) (by rw [dom_set]; exact hq) (by rw [dom_set]; exact hm.2) (plainB_set hb he) w1 o h1
      rw [dom_set] at this
      exact this
    obtain ⟨rs, hrs, hrest⟩ := all_inv (H.core _ (by decide)) rfl rfl h
      (fun w1 o h1 => by
        obtain ⟨e1, rs, e2, hx⟩ := ih r b hr hm.1 hb _ _ h1
        exact ⟨e1, rs, e2, fun b' hb' => ((hx.sound b' hb').2.2.1 x).2 (.inr hxr)⟩)
      (fun e he w1 o h1 => (hbody e he w1 o h1).1)
    obtain ⟨_, rs', e2, hx⟩ := ih r b hr hm.1 hb _ _ hrs
    cases e2
    have hgx : ∀ b' ∈ rs, b'.get x = some ((b'.get x).getD .none) := by
      intro b1 hb1
      obtain ⟨v, hv⟩ := (Dict.has_iff _ _).1 (((hx.sound b1 hb1).2.2.1 x).2 (.inr hxr))
      rw [hv]; rfl
    have hpl : ∀ b' ∈ rs, Plain ((b'.get x).getD .none) := fun b' hb' => (hx.sound b' hb').1 x _ (hgx b' hb')
    have hrest' := hrest (fun b' hb' => (hx.sound b' hb').1)
    have hrun : ∀ b' ∈ rs, ∃ bs, (solverAt (modelOf mods) n).solve (.list (formValues q)) (b.set x ((b'.get x).getD .none)) w = .ok w (.rows bs) ∧
        Exact (formBinds q) (SatAll P q (Known.more (dom b) [x])) (b.set x ((b'.get x).getD .none)) bs := by
      intro b' hb'
      obtain ⟨o, ho⟩ := (hrest' b' hb' _ (hgx b' hb')).2
      obtain ⟨_, bs, rfl, hxx⟩ := hbody _ (hpl b' hb') _ _ ho
      exact ⟨bs, ho, hxx⟩
    have hall := C17_all mods n w b (.list (formValues r)) (.list (formValues q)) _ _ (H.core _ (by decide)) x hx0 rfl rfl rs hrs
      (fun b' => (b'.get x).getD .none) hgx (fun b' hb' => ⟨(hrest' b' hb' _ (hgx b' hb')).1, (hpl b' hb').2.2⟩)
      (fun e => match (solverAt (modelOf mods) n).solve (.list (formValues q)) (b.set x e) w with
        | .ok _ o => o
        | _ => .rows [])
      (fun b' hb' => by obtain ⟨bs, h1, _⟩ := hrun b' hb'; simp only [h1])
    rw [hall] at h
    simp only [Res.ok.injEq] at h
    obtain ⟨rfl, rfl⟩ := h
    refine ⟨rfl, _, rfl, ?_⟩
    have hcond : ∀ σ : Assignment, Agrees σ b →
        ((∀ τ, AgreeOn (dom b) σ τ → SatAll P r (dom b) τ → ∃ τ', AgreeOn (Known.more (dom b) [x]) τ τ' ∧ SatAll P q (Known.more (dom b) [x]) τ') ↔
        ∀ b' ∈ rs, 0 < (match (solverAt (modelOf mods) n).solve (.list (formValues q)) (b.set x ((b'.get x).getD .none)) w with
        | .ok _ o => o
        | _ => .rows []).len) := by
      intro σ hσ
      constructor
      · intro h b' hb'
        obtain ⟨bs, h1, h2⟩ := hrun b' hb'
        obtain ⟨s1, s2, s3, s4⟩ := hx.sound b' hb'
        have hτ : Agrees (totalOf b') (b.set x ((b'.get x).getD .none)) :=
          (agrees_set hx0).2 ⟨(totalOf_agrees b').mono s2, totalOf_agrees b' x _ (hgx b' hb')⟩
        have := h (totalOf b') (agreeOn_of_agrees (totalOf_plain s1) hσ ((totalOf_agrees b').mono s2)) (s4 _ (totalOf_plain s1) (totalOf_agrees b'))
        rw [← dom_set b x ((b'.get x).getD .none)] at this h2
        rw [h2.nonempty hτ] at this
        simp only [h1, hlen]
        cases bs with
        | nil => exact absurd rfl this
        | cons => simp
      · intro h τ hτ hS
        obtain ⟨b', hb', hag⟩ := hx.complete τ hτ.1 (agrees_of_agreeOn hτ hσ) hS
        obtain ⟨bs, h1, h2⟩ := hrun b' hb'
        have hne := h b' hb'
        simp only [h1, hlen] at hne
        rw [← dom_set b x ((b'.get x).getD .none)] at h2 ⊢
        exact (h2.nonempty ((agrees_set hx0).2 ⟨agrees_of_agreeOn hτ hσ, hag x _ (hgx b' hb')⟩)).2 (by intro e; rw [e] at hne; simp at hne)
    have hrange : ∀ σ : Assignment, Agrees σ b →
        ((∃ τ, AgreeOn (dom b) σ τ ∧ SatAll P r (dom b) τ ∧ τ x = σ x) ↔ σ x ∈ (rs.map fun b' => (b'.get x).getD .none).eraseDups) := by
      intro σ hσ
      rw [List.mem_eraseDups, List.mem_map]
      constructor
      · rintro ⟨τ, hτ, hS, he⟩
        obtain ⟨b', hb', hag⟩ := hx.complete τ hτ.1 (agrees_of_agreeOn hτ hσ) hS
        exact ⟨b', hb', by rw [← he, hag x _ (hgx b' hb')]⟩
      · rintro ⟨b', hb', he⟩
        obtain ⟨s1, s2, s3, s4⟩ := hx.sound b' hb'
        exact ⟨totalOf b', agreeOn_of_agrees (totalOf_plain s1) hσ ((totalOf_agrees b').mono s2), s4 _ (totalOf_plain s1) (totalOf_agrees b'),
          by rw [← he]; exact totalOf_agrees b' x _ (hgx b' hb')⟩
    split
    · rename_i hyes
      refine ⟨?_, ?_, nodup_set (nodup_eraseDups_values _)⟩
      · intro b1 hb1
        obtain ⟨e, he, rfl⟩ := List.mem_map.1 hb1
        have hpe : Plain e := by
          rw [List.mem_eraseDups] at he
          obtain ⟨b', hb', rfl⟩ := List.mem_map.1 he
          exact hpl b' hb'
        refine ⟨plainB_set hb hpe, extends_set hx0, fun y => has_set y, fun σ hp hσ => ?_⟩
        obtain ⟨h1, h2⟩ := (agrees_set hx0).1 hσ
        simp only [Sat]
        exact ⟨(hrange σ h1).2 (h2 ▸ he), (hcond σ h1).2 hyes⟩
      · intro σ hp hσ hS
        simp only [Sat] at hS
        exact ⟨_, List.mem_map.2 ⟨σ x, (hrange σ hσ).1 hS.1, rfl⟩, (agrees_set hx0).2 ⟨hσ, rfl⟩⟩
    · rename_i hno
      refine ⟨by simp, fun σ hp hσ hS => ?_, by simp [NoDup]⟩
      simp only [Sat] at hS
      exact absurd ((hcond σ hσ).1 hS.2) hno
  | either qs =>
    simp only [Form.Ok] at hf
    simp only [Form.Called] at hm
    simp only [Form.toValue] at h
    have h' : solveDisjuncts (solverAt (modelOf mods) n) b (altValues qs) w = .ok w' out := h
    obtain ⟨h1, bs, h2, h3⟩ := disjuncts_exact (V := altBinds qs)
      (fun q hq w1 o h1 => ih q b (altsOk_iff.1 hf.1 q hq) (altsCalled_iff.1 hm q hq) hb w1 o h1) hf.2 h'
    exact ⟨h1, bs, h2, by simpa only [Form.binds, Sat] using h3⟩
  | equals a c =>
    simp only [Form.Ok] at hf
    simp only [Form.Called] at hm
    simp only [Form.toValue] at h
    have hpa : a.isVar = false → Plain a := hf a (by simp)
    have hpc : c.isVar = false → Plain c := hf c (by simp)
    simp only [Form.binds]
    have hbnd : ∀ {v : Value}, argValue b v ≠ .none → ∀ x, v = .var x → b.has x = true := by
      rintro v hv x rfl
      cases hx : b.get x with
      | none => exact absurd hx hv
      | some u => exact (Dict.has_iff _ _).2 ⟨u, hx⟩
    cases ha : argValue b a with
    | none =>
      obtain ⟨x, rfl, hx⟩ := argValue_none ha
      cases hc : argValue b c with
      | none =>
        obtain ⟨y, rfl, hy⟩ := argValue_none hc
        obtain ⟨msg, he⟩ := C60_equals_unbound mods n w b (H.core _ (by decide)) x y hx hy
        rw [he] at h
        simp at h
      | some v =>
        obtain ⟨hv, hi⟩ := argsOk_value hb hpc hc
        rw [C60_equals_binds_left mods n w b _ (H.core _ (by decide)) x hx v hc hv.1] at h
        simp only [Res.ok.injEq] at h
        obtain ⟨rfl, rfl⟩ := h
        refine ⟨rfl, _, rfl, (exact_bind hb hx hv (S := fun σ => σ x = v) fun σ _ _ => Iff.rfl).congr ?_ ?_⟩
        · intro y
          simp only [Known.more, dom, argVars]
          cases c with
          | var z =>
            have := hbnd (v := .var z) (by rw [hc]; simp) z rfl
            simp only [List.filterMap_cons, List.filterMap_nil, List.mem_cons, List.not_mem_nil, or_false]
            constructor
            · rintro (h | h)
              · exact .inl h
              · exact .inr (.inl h)
            · rintro (h | rfl | rfl)
              · exact .inl h
              · exact .inr rfl
              · exact .inl this
          | _ => simp
        · intro σ _ hσ
          simp only [Sat, hi σ hσ]
          exact Iff.rfl
    | some u =>
      obtain ⟨hu, hia⟩ := argsOk_value hb hpa ha
      cases hc : argValue b c with
      | none =>
        obtain ⟨y, rfl, hy⟩ := argValue_none hc
        rw [C60_equals_binds_right mods n w b _ (H.core _ (by decide)) y hy u ha hu.1] at h
        simp only [Res.ok.injEq] at h
        obtain ⟨rfl, rfl⟩ := h
        refine ⟨rfl, _, rfl, (exact_bind hb hy hu (S := fun σ => σ y = u) fun σ _ _ => Iff.rfl).congr ?_ ?_⟩
        · intro z
          simp only [Known.more, dom, argVars]
          cases a with
          | var t =>
            have := hbnd (v := .var t) (by rw [ha]; simp) t rfl
            simp only [List.filterMap_cons, List.filterMap_nil, List.mem_cons, List.not_mem_nil, or_false]
            constructor
            · rintro (h | h)
              · exact .inl h
              · exact .inr (.inr h)
            · rintro (h | rfl | rfl)
              · exact .inl h
              · exact .inl this
              · exact .inr rfl
          | _ => simp
        · intro σ _ hσ
          simp only [Sat, hia σ hσ]
          exact eq_comm
      | some v =>
        obtain ⟨hv, hic⟩ := argsOk_value hb hpc hc
        rw [C60_equals_bound mods n w b _ _ (H.core _ (by decide)) u v ha hc hu.1 hv.1] at h
        simp only [Res.ok.injEq] at h
        obtain ⟨rfl, rfl⟩ := h
        refine ⟨rfl, _, rfl, (exact_test hb (S := fun σ => u = v) fun σ _ _ => Iff.rfl).congr ?_ ?_⟩
        · intro z
          simp only [Known.more, dom, argVars, List.not_mem_nil, or_false, List.mem_filterMap]
          constructor
          · exact .inl
          · rintro (h | ⟨t, ht, he⟩)
            · exact h
            · cases t <;> simp at he
              subst he
              simp only [List.mem_cons, List.not_mem_nil, or_false] at ht
              rcases ht with rfl | rfl
              · exact hbnd (by rw [ha]; simp) _ rfl
              · exact hbnd (by rw [hc]; simp) _ rfl
        · intro σ _ hσ
          simp only [Sat, hia σ hσ, hic σ hσ]
  | greater a c =>
    simp only [Form.Ok] at hf
    simp only [Form.Called] at hm
    simp only [Form.toValue] at h
    by_cases hn : argValue b a = .none ∨ argValue b c = .none
    · obtain ⟨msg, he⟩ := (C60_compare_unbound mods n w b _ _ (H.core _ (by decide)) (H.core _ (by decide)) hn).1
      rw [he] at h
      simp at h
    · rw [not_or] at hn
      obtain ⟨u, ha⟩ := Option.ne_none_iff_exists'.1 hn.1
      obtain ⟨v, hc⟩ := Option.ne_none_iff_exists'.1 hn.2
      obtain ⟨hu, hia⟩ := argsOk_value hb (hf a (by simp)) ha
      obtain ⟨hv, hic⟩ := argsOk_value hb (hf c (by simp)) hc
      rw [run_greater (H.core _ (by decide)) ha hc hu.1 hv.1] at h
      cases hl : pyLt v u with
      | error e => simp [hl] at h
      | ok t =>
        simp only [hl, Res.ok.injEq] at h
        obtain ⟨rfl, rfl⟩ := h
        refine ⟨rfl, _, rfl, exact_test hb fun σ hp hσ => ?_⟩
        simp only [Sat, hia σ hσ, hic σ hσ, pyLt_iff hl]
  | less a c =>
    simp only [Form.Ok] at hf
    simp only [Form.Called] at hm
    simp only [Form.toValue] at h
    by_cases hn : argValue b a = .none ∨ argValue b c = .none
    · obtain ⟨msg, he⟩ := (C60_compare_unbound mods n w b _ _ (H.core _ (by decide)) (H.core _ (by decide)) hn).2
      rw [he] at h
      simp at h
    · rw [not_or] at hn
      obtain ⟨u, ha⟩ := Option.ne_none_iff_exists'.1 hn.1
      obtain ⟨v, hc⟩ := Option.ne_none_iff_exists'.1 hn.2
      obtain ⟨hu, hia⟩ := argsOk_value hb (hf a (by simp)) ha
      obtain ⟨hv, hic⟩ := argsOk_value hb (hf c (by simp)) hc
      rw [run_less (H.core _ (by decide)) ha hc hu.1 hv.1] at h
      cases hl : pyLt u v with
      | error e => simp [hl] at h
      | ok t =>
        simp only [hl, Res.ok.injEq] at h
        obtain ⟨rfl, rfl⟩ := h
        refine ⟨rfl, _, rfl, exact_test hb fun σ hp hσ => ?_⟩
        simp only [Sat, hia σ hσ, hic σ hσ, pyLt_iff hl]
  | assign x v =>
    simp only [Form.Ok] at hf
    simp only [Form.Called] at hm
    have hx0 : b.get x = .none := (Dict.has_false_iff _ _).1 (by simpa [dom] using hf.1)
    obtain ⟨u, hu, hp, hi⟩ := given_value hb hf.2
    simp only [Form.toValue] at h
    rw [C60_let mods n w b _ (H.core _ (by decide)) x hx0 u hu] at h
    simp only [Res.ok.injEq] at h
    obtain ⟨rfl, rfl⟩ := h
    refine ⟨rfl, _, rfl, exact_bind hb hx0 hp fun σ _ hσ => ?_⟩
    simp only [Sat, hi σ hσ]
  | times a c x =>
    simp only [Form.Ok] at hf
    simp only [Form.Called] at hm
    have hx0 : b.get x = .none := (Dict.has_false_iff _ _).1 (by simpa [dom] using hf.1)
    obtain ⟨u, hu, _, hia⟩ := given_value hb hf.2.1
    obtain ⟨v, hv, _, hic⟩ := given_value hb hf.2.2
    simp only [Form.toValue] at h
    obtain ⟨q, r, rfl, rfl⟩ := multiply_num (H.core _ (by decide)) hu hv h
    rw [C60_multiply mods n w b _ _ (H.core _ (by decide)) x hx0 q r hu hv] at h
    simp only [Res.ok.injEq] at h
    obtain ⟨rfl, rfl⟩ := h
    refine ⟨rfl, _, rfl, exact_bind hb hx0 ⟨by simp, rfl, rfl⟩ fun σ _ hσ => ?_⟩
    simp only [Sat, hia σ hσ, hic σ hσ, Value.num.injEq]
    constructor
    · rintro ⟨_, _, rfl, rfl, h⟩; exact h
    · intro h; exact ⟨_, _, rfl, rfl, h⟩

theorem forms_exact {ar : String → Option Nat} {calls : Calls} {P : Program} (H : BaseIn mods w ar calls P) (n : Nat) :
    FormsExactAt mods w ar calls P n := by
  induction n with
  | zero => intro q b _ _ _ w1 o h; exact absurd h (by simp [solverAt])
  | succ n ih =>
    intro q
    induction q with
    | nil =>
      intro b _ _ hb w1 o h
      have h' : (Res.ok w (.rows [b]) : Res W SolOut) = .ok w1 o := h
      simp only [Res.ok.injEq] at h'
      obtain ⟨rfl, rfl⟩ := h'
      refine ⟨rfl, [b], rfl, ?_⟩
      have := exact_test hb (S := SatAll P [] (dom b)) (c := True) fun σ _ _ => by simp [SatAll]
      simpa only [if_true, formBinds] using this
    | cons f fs ihq =>
      intro b hq hm hb w1 o h
      simp only [FormsOk] at hq
      simp only [FormsCalled] at hm
      cases fs with
      | nil =>
        obtain ⟨h1, bs, h2, h3⟩ := form_exact H ih hq.1 hm.1 hb h
        exact ⟨h1, bs, h2, by simpa [formBinds, SatAll] using h3⟩
      | cons f2 fs =>
        have h' : (do
          match ← solveSingle (solverAt (modelOf mods) n) (modelOf mods) f.toValue b with
          | .rows bs => collect (solveAtoms (solverAt (modelOf mods) n) (modelOf mods) (formValues (f2 :: fs))) bs []
          | .iter _ 0 => pure (.rows [])
          | .iter _ (_ + 1) => M.throw .attributeError : M W SolOut) w = .ok w1 o := h
        obtain ⟨w2, o2, h1, h2⟩ := M.bind_eq_ok.1 h'
        obtain ⟨rfl, bs, rfl, hx⟩ := form_exact H ih hq.1 hm.1 hb h1
        obtain ⟨e1, bs2, e2, hx2⟩ := exact_collect hx (V2 := formBinds (f2 :: fs)) (S2 := SatAll P (f2 :: fs) (Known.more (dom b) f.binds))
          (fun b1 hb1 w3 o3 h3 => by
            have := ihq b1 (by rw [hx.dom_eq hb1]; exact hq.2) (by rw [hx.dom_eq hb1]; exact hm.2) (hx.sound b1 hb1).1 w3 o3 h3
            rw [hx.dom_eq hb1] at this
            exact this) h2
        exact ⟨e1, bs2, e2, hx2⟩

/-! ## Queries return -/

theorem map_fin {α β : Type} {r : Res W α} {f : α → β} (h : r ≠ .oof) : r.map f ≠ .oof := by
  cases r <;> simp_all [Res.map]

theorem lift_fin {α : Type} (x : Except Err α) (w : W) : (M.lift x : M W α) w ≠ .oof := by
  cases x <;> simp [M.lift, M.throw_run, M.pure_run']

theorem bind_fin {α β : Type} {x : M W α} {f : α → M W β} {w : W} (h : x w ≠ .oof) (hf : ∀ w' a, x w = .ok w' a → f a w' ≠ .oof) :
    (x >>= f) w ≠ .oof := by
  rw [M.bind_run]
  cases hx : x w with
  | oof => exact absurd hx h
  | err => simp
  | ok w' a => exact hf w' a hx

theorem allLoop_fin {ctx : Ctx W} {x : String} {body : Value} {es acc : List Value}
    (hw : ∀ e ∈ es, ctx.solver.solve body (ctx.binding.union [(x, e)]) w ≠ .oof ∧
      ∀ w1 o, ctx.solver.solve body (ctx.binding.union [(x, e)]) w = .ok w1 o → w1 = w) :
    allLoop ctx x body es acc w ≠ .oof := by
  induction es generalizing acc with
  | nil => simp [allLoop]
  | cons e es ih =>
    simp only [allLoop]
    refine bind_fin (hw e (by simp)).1 fun w1 o h1 => ?_
    obtain rfl := (hw e (by simp)).2 _ _ h1
    exact ih fun e he => hw e (by simp [he])

theorem all_fin {n : Nat} {b : Binding} (hp : NotDefined mods w "all") {x : String} {a1 a2 range body : Value} (ha1 : argValue b a1 = some range)
    (ha2 : argValue b a2 = some body)
    (hf : (solverAt (modelOf mods) n).solve range b w ≠ .oof)
    (hr : ∀ w1 o, (solverAt (modelOf mods) n).solve range b w = .ok w1 o → w1 = w ∧ ∃ rs, o = .rows rs ∧
      ∀ b' ∈ rs, b'.has x = true ∧ PlainB b')
    (hw : ∀ e : Value, Plain e → (solverAt (modelOf mods) n).solve body (b.set x e) w ≠ .oof ∧
      ∀ w1 o, (solverAt (modelOf mods) n).solve body (b.set x e) w = .ok w1 o → w1 = w) :
    (solverAt (modelOf mods) (n + 1)).solve (query1 "all" [.var x, a1, a2]) b w ≠ .oof := by
  rw [solve_core hp rfl (by decide)]
  have key : coreAll (dbValues [.var x, a1, a2] b)
      { predicate := "all", columns := [], arguments := [.var x, a1, a2], binding := b, solver := solverAt (modelOf mods) n } w ≠ .oof := by
    simp only [coreAll]
    core_eval
    rw [ha1, ha2]
    simp only [Option.getD_some]
    cases hs : (solverAt (modelOf mods) n).solve range b w with
    | oof => exact absurd hs hf
    | err => simp
    | ok w1 o =>
      obtain ⟨rfl, rs, rfl, hrs⟩ := hr _ _ hs
      simp only [iterSol, M.pure_run]
      have hg : ∀ b' ∈ rs, b'.get x = some ((b'.get x).getD .none) := by
        intro b1 hb1
        obtain ⟨v, hv⟩ := (Dict.has_iff _ _).1 (hrs b1 hb1).1
        rw [hv]; rfl
      rw [lookupAll_eq hg]
      simp only [M.lift, M.pure_run']
      cases hos : orderedSet (rs.map fun b' => (b'.get x).getD .none) [] with
      | error er => simp [M.throw_run]
      | ok es =>
        have hh := orderedSet_hashable hos
        have hes : es = (rs.map fun b' => (b'.get x).getD .none).eraseDups := by
          rw [orderedSet_eq hh, addValue_eraseDups] at hos
          simpa using hos.symm
        have hpe : ∀ e ∈ es, Plain e := by
          intro e1 he1
          rw [hes, List.mem_eraseDups] at he1
          obtain ⟨b1, hb1, rfl⟩ := List.mem_map.1 he1
          exact (hrs b1 hb1).2 x _ (hg b1 hb1)
        simp only [M.pure_run']
        cases es with
        | nil => simp
        | cons e1 es1 =>
          simp only [nameOf, M.bind_run, M.pure_run']
          have := allLoop_fin (w := w1) (ctx := { predicate := "all", columns := [], arguments := [.var x, a1, a2], binding := b, solver := solverAt (modelOf mods) n })
            (x := x) (body := body) (es := e1 :: es1) (acc := []) (fun e he => hw e (hpe e he))
          split
          · split <;> simp
          · simp
          · contradiction
  split
  · exact resultsOf_fin _ _ _ _
  · simp
  · simp
  · contradiction

theorem disjuncts_fin {api : SolverApi W} {b : Binding} {qs : List (List Form)}
    (hq : ∀ q ∈ qs, api.solve (.list (formValues q)) b w ≠ .oof ∧ ∀ w1 o, api.solve (.list (formValues q)) b w = .ok w1 o → w1 = w) :
    solveDisjuncts api b (altValues qs) w ≠ .oof := by
  induction qs with
  | nil => simp [altValues, solveDisjuncts]
  | cons q qs ih =>
    simp only [altValues, solveDisjuncts]
    refine bind_fin (hq q (by simp)).1 fun w1 o h1 => ?_
    obtain rfl := (hq q (by simp)).2 _ _ h1
    split
    · simp
    · exact ih fun q hq' => hq q (by simp [hq'])

theorem altsDepth_le {rank : String → Nat} {qs : List (List Form)} {q : List Form} (h : q ∈ qs) : formsDepth rank q ≤ altsDepth rank qs := by
  induction qs with
  | nil => simp at h
  | cons q1 qs ih =>
    simp only [altsDepth]
    rcases List.mem_cons.1 h with rfl | h
    · omega
    · have := ih h; omega

theorem det_greater_fin {n : Nat} {b : Binding} (hp : NotDefined mods w "det_greater_than") {a body c v : Value}
    (ha : argValue b a = some body) (hc : argValue b c = some v) (hs : (solverAt (modelOf mods) n).solve body b w ≠ .oof) :
    (solverAt (modelOf mods) (n + 1)).solve (query1 "det_greater_than" [a, c]) b w ≠ .oof := by
  cases v with
  | num q => rw [C14_det_greater_than mods n w _ _ b hp ha _ _ hc]; exact map_fin hs
  | _ =>
    rw [solve_core hp rfl (by decide)]
    simp only [coreDetGreaterThan]
    core_eval
    rw [ha, hc]
    simp only [Option.getD_some, M.bind_run]
    cases h : (solverAt (modelOf mods) n).solve body b w with
    | oof => exact absurd h hs
    | err => simp
    | ok w1 r => simp [numOf, M.lift]

theorem det_less_fin {n : Nat} {b : Binding} (hp : NotDefined mods w "det_less_than") {a body c v : Value}
    (ha : argValue b a = some body) (hc : argValue b c = some v) (hs : (solverAt (modelOf mods) n).solve body b w ≠ .oof) :
    (solverAt (modelOf mods) (n + 1)).solve (query1 "det_less_than" [a, c]) b w ≠ .oof := by
  cases v with
  | num q => rw [C14_det_less_than mods n w _ _ b hp ha _ _ hc]; exact map_fin hs
  | _ =>
    rw [solve_core hp rfl (by decide)]
    simp only [coreDetLessThan]
    core_eval
    rw [ha, hc]
    simp only [Option.getD_some, M.bind_run]
    cases h : (solverAt (modelOf mods) n).solve body b w with
    | oof => exact absurd h hs
    | err => simp
    | ok w1 r => simp [numOf, M.lift]

theorem multiply_fin {n : Nat} {b : Binding} (hp : NotDefined mods w "multiply") {a c d u v : Value}
    (ha : argValue b a = some u) (hc : argValue b c = some v) :
    (solverAt (modelOf mods) (n + 1)).solve (query1 "multiply" [a, c, d]) b w ≠ .oof := by
  rw [solve_core hp rfl (by decide)]
  simp only [coreMultiply]
  core_eval
  rw [ha, hc]
  simp only [Option.getD_some]
  cases u <;> simp
  cases v <;> simp [resultsOf_fin]

/-- Queries of at most this depth return. -/
def FormsReturnAt (mods : List (Module W)) (w : W) (ar : String → Option Nat) (calls : Calls) (rank : String → Nat) (n : Nat) : Prop :=
  ∀ q b, FormsOk ar q (dom b) → FormsCalled calls q (dom b) → PlainB b → formsDepth rank q ≤ n →
    (solverAt (modelOf mods) n).solve (.list (formValues q)) b w ≠ .oof

/-- Atoms return when the depth is above the rank of the predicate, if the queries that they lead to return. -/
def AtomsReturn (mods : List (Module W)) (w : W) (ar : String → Option Nat) (calls : Calls) (rank : String → Nat) : Prop :=
  ∀ n, FormsReturnAt mods w ar calls rank n → ∀ p args b, ar p = some args.length → calls p (knownAt (dom b) args) → ArgsOk args → PlainB b →
    rank p ≤ n → (solverAt (modelOf mods) (n + 1)).solve (query1 p args) b w ≠ .oof

theorem form_fin {ar : String → Option Nat} {calls : Calls} {P : Program} (H : BaseIn mods w ar calls P) {rank : String → Nat}
    (hfin : AtomsReturn mods w ar calls rank) {n : Nat} (ih : FormsReturnAt mods w ar calls rank n)
    {f : Form} {b : Binding} (hf : f.Ok ar (dom b)) (hm : f.Called calls (dom b)) (hb : PlainB b) (hd : f.depth rank ≤ n + 1) :
    (solverAt (modelOf mods) (n + 1)).solve (.list [f.toValue]) b w ≠ .oof := by
  cases f with
  | atom p args =>
    simp only [Form.Ok] at hf
    simp only [Form.Called] at hm
    simp only [Form.depth] at hd
    simp only [Form.toValue]
    exact hfin n ih p args b hf.1 hm hf.2 hb (by omega)
  | neg q =>
    simp only [Form.Ok] at hf
    simp only [Form.Called] at hm
    simp only [Form.depth] at hd
    simp only [Form.toValue]
    rw [C13_not mods n w _ _ b (H.core _ (by decide)) rfl]
    exact map_fin (ih q b hf hm hb (by omega))
  | thereIsNo q =>
    simp only [Form.Ok] at hf
    simp only [Form.Called] at hm
    simp only [Form.depth] at hd
    simp only [Form.toValue]
    rw [C13_none mods n w _ _ b (H.core _ (by decide)) rfl]
    exact map_fin (ih q b hf hm hb (by omega))
  | thereIs q =>
    simp only [Form.Ok] at hf
    simp only [Form.Called] at hm
    simp only [Form.depth] at hd
    simp only [Form.toValue]
    rw [C13_scoped mods n w _ _ b (H.core _ (by decide)) rfl]
    exact map_fin (ih q b hf hm hb (by omega))
  | exactly q c =>
    simp only [Form.Ok] at hf
    simp only [Form.Called] at hm
    simp only [Form.depth] at hd
    obtain ⟨v, hv, _, hi⟩ := given_value hb hf.2
    simp only [Form.toValue]
    rw [run_det_equals (H.core _ (by decide)) rfl hv]
    exact map_fin (ih q b hf.1 hm hb (by omega))
  | moreThan q c =>
    simp only [Form.Ok] at hf
    simp only [Form.Called] at hm
    simp only [Form.depth] at hd
    obtain ⟨v, hv, _, hi⟩ := given_value hb hf.2
    simp only [Form.toValue]
    exact det_greater_fin (H.core _ (by decide)) rfl hv (ih q b hf.1 hm hb (by omega))
  | fewerThan q c =>
    simp only [Form.Ok] at hf
    simp only [Form.Called] at hm
    simp only [Form.depth] at hd
    obtain ⟨v, hv, _, hi⟩ := given_value hb hf.2
    simp only [Form.toValue]
    exact det_less_fin (H.core _ (by decide)) rfl hv (ih q b hf.1 hm hb (by omega))
  | count x q =>
    simp only [Form.Ok] at hf
    simp only [Form.Called] at hm
    simp only [Form.depth] at hd
    have hx0 : b.get x = .none := (Dict.has_false_iff _ _).1 (by simpa [dom] using hf.1)
    simp only [Form.toValue]
    rw [C14_count mods n w _ _ b (H.core _ (by decide)) rfl x hx0]
    exact map_fin (ih q b hf.2 hm hb (by omega))
  | all x r q =>
    simp only [Form.Ok] at hf
    simp only [Form.Called] at hm
    simp only [Form.depth] at hd
    obtain ⟨hnb, hxr, hr, hq⟩ := hf
    simp only [Form.toValue]
    refine all_fin (H.core _ (by decide)) rfl rfl (ih r b hr hm.1 hb (by omega)) ?_ ?_
    · intro w1 o h1
      obtain ⟨e1, rs, e2, hx⟩ := forms_exact H n r b hr hm.1 hb _ _ h1
      exact ⟨e1, rs, e2, fun b' hb' => ⟨((hx.sound b' hb').2.2.1 x).2 (.inr hxr), (hx.sound b' hb').1⟩⟩
    · intro e he
      have hq' : FormsOk ar q (dom (b.set x e)) := by rw [dom_set]; exact hq
      have hm' : FormsCalled calls q (dom (b.set x e)) := by rw [dom_set]; exact hm.2
      exact ⟨ih q _ hq' hm' (plainB_set hb he) (by omega), fun w1 o h1 => (forms_exact H n q _ hq' hm' (plainB_set hb he) _ _ h1).1⟩
  | either qs =>
    simp only [Form.Ok] at hf
    simp only [Form.Called] at hm
    simp only [Form.depth] at hd
    show solveDisjuncts (solverAt (modelOf mods) n) b (altValues qs) w ≠ .oof
    refine disjuncts_fin fun q hq => ⟨ih q b (altsOk_iff.1 hf.1 q hq) (altsCalled_iff.1 hm q hq) hb ?_, fun w1 o h1 =>
      (forms_exact H n q b (altsOk_iff.1 hf.1 q hq) (altsCalled_iff.1 hm q hq) hb _ _ h1).1⟩
    have := altsDepth_le (rank := rank) hq
    omega
  | equals a c =>
    simp only [Form.Ok] at hf
    simp only [Form.Called] at hm
    simp only [Form.toValue]
    cases ha : argValue b a with
    | none =>
      obtain ⟨x, rfl, hx⟩ := argValue_none ha
      cases hc : argValue b c with
      | none =>
        obtain ⟨y, rfl, hy⟩ := argValue_none hc
        obtain ⟨msg, he⟩ := C60_equals_unbound mods n w b (H.core _ (by decide)) x y hx hy
        rw [he]; simp
      | some v =>
        obtain ⟨hv, hi⟩ := argsOk_value hb (hf c (by simp)) hc
        rw [C60_equals_binds_left mods n w b _ (H.core _ (by decide)) x hx v hc hv.1]; simp
    | some u =>
      obtain ⟨hu, hia⟩ := argsOk_value hb (hf a (by simp)) ha
      cases hc : argValue b c with
      | none =>
        obtain ⟨y, rfl, hy⟩ := argValue_none hc
        rw [C60_equals_binds_right mods n w b _ (H.core _ (by decide)) y hy u ha hu.1]; simp
      | some v =>
        obtain ⟨hv, hic⟩ := argsOk_value hb (hf c (by simp)) hc
        rw [C60_equals_bound mods n w b _ _ (H.core _ (by decide)) u v ha hc hu.1 hv.1]; simp
  | greater a c =>
    simp only [Form.Ok] at hf
    simp only [Form.Called] at hm
    simp only [Form.toValue]
    by_cases hn : argValue b a = .none ∨ argValue b c = .none
    · obtain ⟨msg, he⟩ := (C60_compare_unbound mods n w b _ _ (H.core _ (by decide)) (H.core _ (by decide)) hn).1
      rw [he]; simp
    · rw [not_or] at hn
      obtain ⟨u, ha⟩ := Option.ne_none_iff_exists'.1 hn.1
      obtain ⟨v, hc⟩ := Option.ne_none_iff_exists'.1 hn.2
      obtain ⟨hu, hia⟩ := argsOk_value hb (hf a (by simp)) ha
      obtain ⟨hv, hic⟩ := argsOk_value hb (hf c (by simp)) hc
      rw [run_greater (H.core _ (by decide)) ha hc hu.1 hv.1]
      cases pyLt v u <;> simp
  | less a c =>
    simp only [Form.Ok] at hf
    simp only [Form.Called] at hm
    simp only [Form.toValue]
    by_cases hn : argValue b a = .none ∨ argValue b c = .none
    · obtain ⟨msg, he⟩ := (C60_compare_unbound mods n w b _ _ (H.core _ (by decide)) (H.core _ (by decide)) hn).2
      rw [he]; simp
    · rw [not_or] at hn
      obtain ⟨u, ha⟩ := Option.ne_none_iff_exists'.1 hn.1
      obtain ⟨v, hc⟩ := Option.ne_none_iff_exists'.1 hn.2
      obtain ⟨hu, hia⟩ := argsOk_value hb (hf a (by simp)) ha
      obtain ⟨hv, hic⟩ := argsOk_value hb (hf c (by simp)) hc
      rw [run_less (H.core _ (by decide)) ha hc hu.1 hv.1]
      cases pyLt u v <;> simp
  | assign x v =>
    simp only [Form.Ok] at hf
    simp only [Form.Called] at hm
    have hx0 : b.get x = .none := (Dict.has_false_iff _ _).1 (by simpa [dom] using hf.1)
    obtain ⟨u, hu, hp, hi⟩ := given_value hb hf.2
    simp only [Form.toValue]
    rw [C60_let mods n w b _ (H.core _ (by decide)) x hx0 u hu]; simp
  | times a c x =>
    simp only [Form.Ok] at hf
    simp only [Form.Called] at hm
    obtain ⟨u, hu, _, hia⟩ := given_value hb hf.2.1
    obtain ⟨v, hv, _, hic⟩ := given_value hb hf.2.2
    simp only [Form.toValue]
    exact multiply_fin (H.core _ (by decide)) hu hv

theorem collect_fin' {f : Binding → M W SolOut} {bs : List Binding}
    (h : ∀ b ∈ bs, f b w ≠ .oof ∧ ∀ w1 o, f b w = .ok w1 o → w1 = w) (acc : List Binding) : collect f bs acc w ≠ .oof := by
  induction bs generalizing acc with
  | nil => simp [collect]
  | cons b bs ih =>
    simp only [collect]
    refine bind_fin (h b (by simp)).1 fun w1 o h1 => ?_
    obtain rfl := (h b (by simp)).2 _ _ h1
    cases o with
    | rows rs => exact ih (fun b hb => h b (by simp [hb])) _
    | iter _ k =>
      cases k with
      | zero => exact ih (fun b hb => h b (by simp [hb])) _
      | succ k => simp

theorem formsDepth_pos (rank : String → Nat) (q : List Form) : 1 ≤ formsDepth rank q := by
  induction q with
  | nil => simp [formsDepth]
  | cons f fs ih => simp only [formsDepth]; omega

theorem forms_fin {ar : String → Option Nat} {calls : Calls} {P : Program} (H : BaseIn mods w ar calls P) {rank : String → Nat}
    (hfin : AtomsReturn mods w ar calls rank) (n : Nat) : FormsReturnAt mods w ar calls rank n := by
  induction n with
  | zero =>
    intro q b _ _ _ hd
    exfalso
    have := formsDepth_pos rank q
    omega
  | succ n ih =>
    intro q
    induction q with
    | nil => intro b _ _ hb _; exact fun h => by cases h
    | cons f fs ihq =>
      intro b hq hm hb hd
      simp only [FormsOk] at hq
      simp only [FormsCalled] at hm
      simp only [formsDepth] at hd
      have hd1 : f.depth rank ≤ n + 1 := by omega
      have h1 := form_fin H hfin ih hq.1 hm.1 hb hd1
      have hd2 : formsDepth rank fs ≤ n + 1 := by omega
      cases fs with
      | nil => exact h1
      | cons f2 fs =>
        show (do
          match ← solveSingle (solverAt (modelOf mods) n) (modelOf mods) f.toValue b with
          | .rows bs => collect (solveAtoms (solverAt (modelOf mods) n) (modelOf mods) (formValues (f2 :: fs))) bs []
          | .iter _ 0 => pure (.rows [])
          | .iter _ (_ + 1) => M.throw .attributeError : M W SolOut) w ≠ .oof
        refine bind_fin h1 fun w1 o h2 => ?_
        obtain ⟨rfl, bs, rfl, hx⟩ := form_exact H (forms_exact H n) hq.1 hm.1 hb h2
        refine collect_fin' (fun b1 hb1 => ?_) []
        have hq1 : FormsOk ar (f2 :: fs) (dom b1) := by rw [hx.dom_eq hb1]; exact hq.2
        have hm1 : FormsCalled calls (f2 :: fs) (dom b1) := by rw [hx.dom_eq hb1]; exact hm.2
        exact ⟨ihq b1 hq1 hm1 (hx.sound b1 hb1).1 hd2, fun w3 o3 h3 => (forms_exact H (n + 1) (f2 :: fs) b1 hq1 hm1 (hx.sound b1 hb1).1 w3 o3 h3).1⟩

end

end Verif

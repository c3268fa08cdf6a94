import Verif.Props.Conversation
import Verif.Props.FirstOrder
import Verif.Props.Core1
import Verif.Props.RuleForms

/-!
# C93: the reply to a question
-/

namespace Verif

variable {W : Type}

/-! ## Intents

The rules of `tests/integration/chat80/intents.pl`; `tests/integration/hello_world/intents.pl` has the first. -/

/-- `intent_list(E1, Sem) :- find_all(E1, Sem, Elements), store(output_type('list'), output_list(Elements)).` -/
def listIntent : Rule :=
  ⟨[.str "intent_list", .var "E1", .var "Sem"],
   .list [.tuple [.str "find_all", .var "E1", .var "Sem", .var "Elements"],
     .tuple [.str "store", .list [.tuple [.str "output_type", .str "list"], .tuple [.str "output_list", .var "Elements"]]]]⟩

/-- `intent_value(Variable, Sem) :- find_one(Variable, Sem, Result), store(output_type('value'), output_value(Result)).` -/
def valueIntent : Rule :=
  ⟨[.str "intent_value", .var "Variable", .var "Sem"],
   .list [.tuple [.str "find_one", .var "Variable", .var "Sem", .var "Result"],
     .tuple [.str "store", .list [.tuple [.str "output_type", .str "value"], .tuple [.str "output_value", .var "Result"]]]]⟩

/-- `intent_yn(Body) :- ( scoped(Body), store(output_type('yes')) ; store(output_type('no')) ).` -/
def ynIntent : Rule :=
  ⟨[.str "intent_yn", .var "Body"],
   .list [.tuple [.str "$disjunction", .list [
     .list [.tuple [.str "scoped", .var "Body"], .tuple [.str "store", .list [.tuple [.str "output_type", .str "yes"]]]],
     .list [.tuple [.str "store", .list [.tuple [.str "output_type", .str "no"]]]]]]]⟩

/-- The model answers the predicate of the intent with this rule only. -/
structure IntentIn (ms : List (Module W)) (w : W) (g : W → InfState) (p : String) (rule : Rule) : Prop where
  relation : findRelations (modelOf ms) w p = [ruleRelation g p]
  rules : (g w).rules.get p = some [rule]

/-! ## Running an intent -/

theorem dict_set_new {d : Dict Value} {x : String} {v : Value} (h : d.get x = none) : d.set x v = d ++ [(x, v)] := by
  induction d with
  | nil => rfl
  | cons kv d ih =>
    obtain ⟨k, u⟩ := kv
    simp only [Dict.get_cons] at h
    by_cases hk : k = x
    · simp [hk] at h
    · simp only [if_neg hk] at h
      simp [Dict.set, hk, ih h]

theorem bindHead_values : ∀ (xs : List String) (args : List Value) (rb : Binding), xs.Nodup → (∀ x ∈ xs, rb.get x = none) →
    args.length = xs.length → (∀ a ∈ args, a.isVar = false) → bindHead [] (xs.map .var) args rb = some (rb ++ xs.zip args)
  | [], args, rb, _, _, hl, _ => by
    cases args with
    | nil => simp [bindHead]
    | cons a as => simp at hl
  | x :: xs, [], rb, _, _, hl, _ => by simp at hl
  | x :: xs, a :: as, rb, hnd, hrb, hl, hv => by
    have ha := hv a (by simp)
    have hx := hrb x (by simp)
    have ih := bindHead_values xs as (rb.set x a) (List.nodup_cons.1 hnd).2 (fun y hy => by
      rw [Dict.get_set]
      split
      · rename_i e; subst e; exact absurd hy (List.nodup_cons.1 hnd).1
      · exact hrb y (List.mem_cons_of_mem _ hy)) (by simpa using hl) (fun y hy => hv y (List.mem_cons_of_mem _ hy))
    rw [dict_set_new hx] at ih
    cases a <;> simp [Value.isVar] at ha <;>
      simp only [List.map_cons, bindHead, Value.isVar, Bool.false_eq_true, if_false, hx, dict_set_new hx, ih] <;> simp

theorem headRow_values (s : Binding) : ∀ (ras args : List Value), args.length = ras.length → (∀ a ∈ args, a.isVar = false) →
    headRow s ras args = some args
  | [], args, hl, _ => by
    cases args with
    | nil => rfl
    | cons a as => simp at hl
  | r :: ras, [], hl, _ => by simp at hl
  | r :: ras, a :: as, hl, hv => by
    have ha := hv a (by simp)
    have ih := headRow_values s ras as (by simpa using hl) (fun y hy => hv y (List.mem_cons_of_mem _ hy))
    cases a <;> simp [Value.isVar] at ha <;> simp [headRow, ih]

theorem headRows_values (ras args : List Value) (hl : args.length = ras.length) (hv : ∀ a ∈ args, a.isVar = false) (bs : List Binding) :
    headRows ras args bs = some (bs.map fun _ => args) := by
  induction bs with
  | nil => rfl
  | cons b bs ih => simp [headRows, headRow_values b ras args hl hv, ih]

theorem dedupRows_same (row : List Value) : ∀ (bs : List Binding) (seen : List (List Char)), strRow row ∈ seen →
    dedupRows seen (bs.map fun _ => row) = []
  | [], _, _ => rfl
  | _ :: bs, seen, h => by
    rw [List.map_cons, dedupRows, if_pos (by simpa using h)]
    exact dedupRows_same row bs seen h

theorem extendRow_own (b : Binding) : ∀ (args : List Value), (∀ a ∈ args, a.isVar = false) → ∀ r c, extendRow b args args r c = .ok (r, c)
  | [], _, _, _ => rfl
  | a :: as, hv, r, c => by
    have ha := hv a (by simp)
    have ih := extendRow_own b as (fun y hy => hv y (List.mem_cons_of_mem _ hy)) r c
    cases a <;> simp [Value.isVar] at ha <;> simp [extendRow, ih]

section
variable {ms : List (Module W)} {w : W} {g : W → InfState} {p : String} {rule : Rule} {xs : List String} {args : List Value} {n : Nat}

/-- A single rule, called with values: its body is solved with the values of the variables of the head. -/
theorem intent_step (hi : IntentIn ms w g p rule) (hhead : rule.head = .str p :: xs.map .var) (hnd : xs.Nodup) (hlen : args.length = xs.length)
    (hargs : ∀ a ∈ args, a.isVar = false) (hp : p ≠ "$disjunction") (hbody : emptyBody rule.body = false) :
    (∀ w' bs, (solverAt (modelOf ms) n).solve rule.body (xs.zip args) w = .ok w' (.rows bs) →
      (solverAt (modelOf ms) (n + 1)).solve (.list [.tuple (.str p :: args)]) [] w = .ok w' (.rows (if bs.isEmpty then [] else [[]]))) ∧
    (∀ w' e, (solverAt (modelOf ms) n).solve rule.body (xs.zip args) w = .err w' e →
      (solverAt (modelOf ms) (n + 1)).solve (.list [.tuple (.str p :: args)]) [] w = .err w' e) ∧
    ((solverAt (modelOf ms) n).solve rule.body (xs.zip args) w = .oof →
      (solverAt (modelOf ms) (n + 1)).solve (.list [.tuple (.str p :: args)]) [] w = .oof) := by
  have hrb : bindHead [] rule.head.tail args (Dict.without [] rule.variables) = some (xs.zip args) := by
    rw [hhead]
    exact bindHead_values xs args [] hnd (fun x _ => rfl) hlen hargs
  have hgo : (solverAt (modelOf ms) (n + 1)).solve (.list [.tuple (.str p :: args)]) [] w =
      solveSingle.go (solverAt (modelOf ms) n) (modelOf ms) [] p args w := rfl
  have hrun : ∀ r, solveRule rule args (solverAt (modelOf ms) n) [] w = r →
      findRelationValues (solverAt (modelOf ms) n) (modelOf ms) p args [] w = (match r with
        | .ok w' rows => .ok w' (.rows (dedupRows [] rows))
        | .err w' e => .err w' e
        | .oof => .oof) := by
    rintro r rfl
    rw [findRelationValues, M.bind_ok (M.gets_run _ w), hi.relation]
    simp only [queryRelations]
    rw [M.bind_run, handleRule_run hi.rules]
    simp only [solveRules, M.bind_run]
    cases solveRule rule args (solverAt (modelOf ms) n) [] w with
    | err => rfl
    | oof => rfl
    | ok w' rows => simp [M.pure_run]
  have hgo' : ∀ r, findRelationValues (solverAt (modelOf ms) n) (modelOf ms) p args [] w = r →
      (solverAt (modelOf ms) (n + 1)).solve (.list [.tuple (.str p :: args)]) [] w = (match r with
        | .ok w' o => resultsOf [] args o w'
        | .err w' e => .err w' e
        | .oof => .oof) := by
    rintro r rfl
    rw [hgo]
    simp only [solveSingle.go, hp, if_false, M.bind_run]
    cases findRelationValues (solverAt (modelOf ms) n) (modelOf ms) p args [] w <;> rfl
  refine ⟨fun w' bs h => ?_, fun w' e h => ?_, fun h => ?_⟩
  · have hs : solveRule rule args (solverAt (modelOf ms) n) [] w = .ok w' (bs.map fun _ => args) := by
      simp only [solveRule, hrb, hbody, Bool.false_eq_true, if_false]
      rw [M.bind_ok h]
      simp only [ruleRows, headRows_values rule.head.tail args (by rw [hhead]; simpa using hlen) hargs]
      rfl
    rw [hgo' _ (hrun _ hs)]
    dsimp only
    cases bs with
    | nil => rfl
    | cons b bs =>
      have : dedupRows [] ((b :: bs).map fun _ => args) = [args] := by
        simp only [List.map_cons, dedupRows, List.contains_nil, Bool.false_eq_true, if_false, List.nil_append]
        rw [dedupRows_same _ _ _ (by simp)]
      rw [this, resultsOf_one rfl w' (extendRow_own [] args hargs [] false)]
      rfl
  · have hs : solveRule rule args (solverAt (modelOf ms) n) [] w = .err w' e := by
      simp only [solveRule, hrb, hbody, Bool.false_eq_true, if_false]
      rw [M.bind_err h]
    rw [hgo' _ (hrun _ hs)]
  · have hs : solveRule rule args (solverAt (modelOf ms) n) [] w = .oof := by
      simp only [solveRule, hrb, hbody, Bool.false_eq_true, if_false]
      rw [M.bind_run, h]
    rw [hgo' _ (hrun _ hs)]

/-- Two atoms, each with one answer. -/
theorem solve_pair {a1 a2 : Value} {b b1 b2 : Binding} {w1 w2 : W} (h1 : (solverAt (modelOf ms) (n + 1)).solve (.list [a1]) b w = .ok w1 (.rows [b1]))
    (h2 : (solverAt (modelOf ms) (n + 1)).solve (.list [a2]) b1 w1 = .ok w2 (.rows [b2])) :
    (solverAt (modelOf ms) (n + 1)).solve (.list [a1, a2]) b w = .ok w2 (.rows [b2]) := by
  show solveAtoms (solverAt (modelOf ms) n) (modelOf ms) [a1, a2] b w = _
  rw [solveAtoms, M.bind_ok (show solveSingle (solverAt (modelOf ms) n) (modelOf ms) a1 b w = .ok w1 (.rows [b1]) from h1)]
  dsimp only
  rw [collect, M.bind_ok (show solveAtoms (solverAt (modelOf ms) n) (modelOf ms) [a2] b1 w1 = .ok w2 (.rows [b2]) from h2)]
  simp [collect, addNew, M.pure_run]

/-- Two atoms, the first with an exception. -/
theorem solve_pair_err {a1 a2 : Value} {b : Binding} {w1 : W} {e : Err}
    (h1 : (solverAt (modelOf ms) (n + 1)).solve (.list [a1]) b w = .err w1 e) :
    (solverAt (modelOf ms) (n + 1)).solve (.list [a1, a2]) b w = .err w1 e := by
  show solveAtoms (solverAt (modelOf ms) n) (modelOf ms) [a1, a2] b w = _
  rw [solveAtoms, M.bind_err (show solveSingle (solverAt (modelOf ms) n) (modelOf ms) a1 b w = .err w1 e from h1)]

/-- Two atoms, the first does not return. -/
theorem solve_pair_oof {a1 a2 : Value} {b : Binding} (h1 : (solverAt (modelOf ms) (n + 1)).solve (.list [a1]) b w = .oof) :
    (solverAt (modelOf ms) (n + 1)).solve (.list [a1, a2]) b w = .oof := by
  show solveAtoms (solverAt (modelOf ms) n) (modelOf ms) [a1, a2] b w = _
  rw [solveAtoms, M.bind_run, (show solveSingle (solverAt (modelOf ms) n) (modelOf ms) a1 b w = .oof from h1)]

/-- `find_all` and `find_one` pass on exceptions. -/
theorem find_err {f : String} (hf : f = "find_all" ∨ f = "find_one") (hp : NotDefined ms w f) {b : Binding} {a0 a body : Value} {r x : String}
    (h0 : argValue b a0 = some (.str x)) (ha : argValue b a = some body) :
    (∀ w' e, (solverAt (modelOf ms) n).solve body b w = .err w' e →
      (solverAt (modelOf ms) (n + 1)).solve (query1 f [a0, a, .var r]) b w = .err w' e) ∧
    ((solverAt (modelOf ms) n).solve body b w = .oof → (solverAt (modelOf ms) (n + 1)).solve (query1 f [a0, a, .var r]) b w = .oof) := by
  rcases hf with rfl | rfl
  · rw [query1, solve_core hp rfl (by decide)]
    simp only [coreFindAll, findAllValues]
    core_eval
    rw [h0, ha]
    simp only [Option.getD_some]
    exact ⟨fun w' e h => by simp [h], fun h => by simp [h]⟩
  · rw [query1, solve_core hp rfl (by decide)]
    simp only [coreFindOne, findAllValues]
    core_eval
    rw [h0, ha]
    simp only [Option.getD_some]
    exact ⟨fun w' e h => by simp [h], fun h => by simp [h]⟩

/-- Two atoms, the first without answers. -/
theorem solve_pair_none {a1 : Value} {as : List Value} {b : Binding} {w1 : W}
    (h1 : (solverAt (modelOf ms) (n + 1)).solve (.list [a1]) b w = .ok w1 (.rows [])) :
    (solverAt (modelOf ms) (n + 1)).solve (.list (a1 :: as)) b w = .ok w1 (.rows []) := by
  cases as with
  | nil => exact h1
  | cons a2 as =>
    show solveAtoms (solverAt (modelOf ms) n) (modelOf ms) (a1 :: a2 :: as) b w = _
    rw [solveAtoms, M.bind_ok (show solveSingle (solverAt (modelOf ms) n) (modelOf ms) a1 b w = .ok w1 (.rows []) from h1)]
    rfl

/-- What is in the buffer after storing into the empty buffer. -/
def stored (atoms : Query) : List LogRecord := atoms.map fun a => ⟨a.1, (outputRelations.get a.1).getD [], a.2⟩

variable {l : Lens W SimpleStore} {body : Value} {x : String} {bs : List Binding} {w' : W}

theorem values_two {a1 a2 : Value} (h1 : a1.isVar = false) (h2 : a2.isVar = false) : ∀ a ∈ [a1, a2], a.isVar = false := by
  intro a ha
  simp only [List.mem_cons, List.not_mem_nil, or_false] at ha
  rcases ha with rfl | rfl <;> assumption

/-- Into the empty buffer. -/
theorem stores_run (hm : StoresIn ms l outputRelations w) {atoms : Query} (ha : ∀ a ∈ atoms, outputRelations.has a.1 = true) (b : Binding)
    (hbuf : l.get w = SimpleStore.clear) (n : Nat) :
    ∃ w2, (solverAt (modelOf ms) (n + 2)).solve (storeQuery atoms) b w = .ok w2 (.rows [b]) ∧
      Represents (l.get w2) (stored (atoms.map fun a => (a.1, a.2.map (bindVars b)))) ∧ ∀ u, l.put u w2 = l.put u w := by
  refine ⟨_, C18_store hm ha b n, ?_, fun u => ?_⟩
  · have := storeAll_represents l outputRelations b atoms w (log := []) (by intro t; simp [hbuf, SimpleStore.clear])
    simpa [stored, Function.comp_def] using this
  · obtain ⟨y, hy⟩ := storeAll_put l outputRelations b atoms w
    rw [hy, l.put_put]

/-- The intent `intent_list`: the distinct values of the variable in the answers are put into the buffer. -/
theorem list_stores (hc : NotDefined ms w "find_all") (hi : IntentIn ms w g "intent_list" listIntent)
    (hv : body.isVar = false) :
    (∀ w' bs, StoresIn ms l outputRelations w' → l.get w' = SimpleStore.clear → (solverAt (modelOf ms) (n + 1)).solve body [("E1", .str x), ("Sem", body)] w = .ok w' (.rows bs) →
      ∃ w2, (solverAt (modelOf ms) (n + 3)).solve (.list [.tuple [.str "intent_list", .str x, body]]) [] w = .ok w2 (.rows [[]]) ∧
      Represents (l.get w2) (stored [("output_type", [.str "list"]), ("output_list", [.list (valuesOf x bs).eraseDups])]) ∧
      ∀ u, l.put u w2 = l.put u w') ∧
    (∀ w' e, (solverAt (modelOf ms) (n + 1)).solve body [("E1", .str x), ("Sem", body)] w = .err w' e →
      (solverAt (modelOf ms) (n + 3)).solve (.list [.tuple [.str "intent_list", .str x, body]]) [] w = .err w' e) ∧
    ((solverAt (modelOf ms) (n + 1)).solve body [("E1", .str x), ("Sem", body)] w = .oof →
      (solverAt (modelOf ms) (n + 3)).solve (.list [.tuple [.str "intent_list", .str x, body]]) [] w = .oof) := by
  obtain ⟨i1, i2, i3⟩ := intent_step (n := n + 2) hi (xs := ["E1", "Sem"]) (args := [.str x, body]) rfl (by decide) rfl (values_two rfl hv) (by decide) rfl
  obtain ⟨f1, f2⟩ := find_err (n := n + 1) (w := w) (.inl rfl) hc (b := [("E1", .str x), ("Sem", body)]) (a0 := .var "E1") (a := .var "Sem") (r := "Elements") rfl rfl
  refine ⟨fun w' bs hm hbuf hs => ?_, fun w' e hs => i2 _ _ (solve_pair_err (f1 _ _ hs)), fun hs => i3 (solve_pair_oof (f2 hs))⟩
  have h1 := C16_find_all ms (n + 1) w w' [("E1", .str x), ("Sem", body)] (.var "E1") (.var "Sem") body bs "Elements" hc x rfl rfl rfl hs
  obtain ⟨w2, h2, h3, h4⟩ := stores_run hm (atoms := [("output_type", [.str "list"]), ("output_list", [.var "Elements"])])
    (by intro a ha; simp only [List.mem_cons, List.not_mem_nil, or_false] at ha; rcases ha with rfl | rfl <;> decide +kernel)
    (Dict.set [("E1", .str x), ("Sem", body)] "Elements" (.list (valuesOf x bs).eraseDups)) hbuf n
  exact ⟨w2, i1 _ _ (solve_pair h1 h2), by simpa [bindVars, Dict.set, Dict.get] using h3, h4⟩

/-- The intent `intent_value`: the value of the variable in the first answer that has one is put into the buffer. Without such an answer the intent
has no answer either, and nothing is put into the buffer. -/
theorem value_stores (hc : NotDefined ms w "find_one") (hi : IntentIn ms w g "intent_value" valueIntent)
    (hv : body.isVar = false) :
    (∀ w' bs, StoresIn ms l outputRelations w' → l.get w' = SimpleStore.clear → (solverAt (modelOf ms) (n + 1)).solve body [("Variable", .str x), ("Sem", body)] w = .ok w' (.rows bs) →
      match valuesOf x bs with
      | [] => (solverAt (modelOf ms) (n + 3)).solve (.list [.tuple [.str "intent_value", .str x, body]]) [] w = .ok w' (.rows [])
      | v :: _ => ∃ w2, (solverAt (modelOf ms) (n + 3)).solve (.list [.tuple [.str "intent_value", .str x, body]]) [] w = .ok w2 (.rows [[]]) ∧
        Represents (l.get w2) (stored [("output_type", [.str "value"]), ("output_value", [v])]) ∧
        ∀ u, l.put u w2 = l.put u w') ∧
    (∀ w' e, (solverAt (modelOf ms) (n + 1)).solve body [("Variable", .str x), ("Sem", body)] w = .err w' e →
      (solverAt (modelOf ms) (n + 3)).solve (.list [.tuple [.str "intent_value", .str x, body]]) [] w = .err w' e) ∧
    ((solverAt (modelOf ms) (n + 1)).solve body [("Variable", .str x), ("Sem", body)] w = .oof →
      (solverAt (modelOf ms) (n + 3)).solve (.list [.tuple [.str "intent_value", .str x, body]]) [] w = .oof) := by
  obtain ⟨i1, i2, i3⟩ := intent_step (n := n + 2) hi (xs := ["Variable", "Sem"]) (args := [.str x, body]) rfl (by decide) rfl (values_two rfl hv)
    (by decide) rfl
  obtain ⟨f1, f2⟩ := find_err (n := n + 1) (w := w) (.inr rfl) hc (b := [("Variable", .str x), ("Sem", body)]) (a0 := .var "Variable") (a := .var "Sem") (r := "Result") rfl rfl
  refine ⟨fun w' bs hm hbuf hs => ?_, fun w' e hs => i2 _ _ (solve_pair_err (f1 _ _ hs)), fun hs => i3 (solve_pair_oof (f2 hs))⟩
  have h1 := C16_find_one ms (n + 1) w w' [("Variable", .str x), ("Sem", body)] (.var "Variable") (.var "Sem") body bs "Result" hc x rfl rfl rfl hs
  cases hvs : valuesOf x bs with
  | nil =>
    rw [hvs] at h1
    exact i1 _ _ (solve_pair_none h1)
  | cons v vs =>
    rw [hvs] at h1
    obtain ⟨w2, h2, h3, h4⟩ := stores_run hm (atoms := [("output_type", [.str "value"]), ("output_value", [.var "Result"])])
      (by intro a ha; simp only [List.mem_cons, List.not_mem_nil, or_false] at ha; rcases ha with rfl | rfl <;> decide +kernel)
      (Dict.set [("Variable", .str x), ("Sem", body)] "Result" v) hbuf n
    exact ⟨w2, i1 _ _ (solve_pair h1 h2), by simpa [bindVars, Dict.set, Dict.get] using h3, h4⟩

/-- The intent `intent_yn`: whether there are answers is put into the buffer. -/
theorem yn_stores (hc : NotDefined ms w "scoped") (hi : IntentIn ms w g "intent_yn" ynIntent)
    (hv : body.isVar = false) :
    (∀ w' bs, StoresIn ms l outputRelations w' → l.get w' = SimpleStore.clear → (solverAt (modelOf ms) (n + 1)).solve body [("Body", body)] w = .ok w' (.rows bs) →
      ∃ w2, (solverAt (modelOf ms) (n + 4)).solve (.list [.tuple [.str "intent_yn", body]]) [] w = .ok w2 (.rows [[]]) ∧
        Represents (l.get w2) (stored [("output_type", [.str (if bs.isEmpty then "no" else "yes")])]) ∧
        ∀ u, l.put u w2 = l.put u w') ∧
    (∀ w' e, (solverAt (modelOf ms) (n + 1)).solve body [("Body", body)] w = .err w' e →
      (solverAt (modelOf ms) (n + 4)).solve (.list [.tuple [.str "intent_yn", body]]) [] w = .err w' e) ∧
    ((solverAt (modelOf ms) (n + 1)).solve body [("Body", body)] w = .oof →
      (solverAt (modelOf ms) (n + 4)).solve (.list [.tuple [.str "intent_yn", body]]) [] w = .oof) := by
  obtain ⟨i1, i2, i3⟩ := intent_step (n := n + 3) hi (xs := ["Body"]) (args := [body]) rfl (by decide) rfl (by simpa using hv) (by decide) rfl
  have hsc := C13_scoped ms (n + 1) w (.var "Body") body [("Body", body)] hc rfl
  have hd : (solverAt (modelOf ms) (n + 3)).solve ynIntent.body [("Body", body)] w = solveDisjuncts (solverAt (modelOf ms) (n + 2)) [("Body", body)]
    [.list [.tuple [.str "scoped", .var "Body"], .tuple [.str "store", .list [.tuple [.str "output_type", .str "yes"]]]],
     .list [.tuple [.str "store", .list [.tuple [.str "output_type", .str "no"]]]]] w := rfl
  refine ⟨fun w' bs hm hbuf hs => ?_, fun w' e hs => i2 _ _ ?_, fun hs => i3 ?_⟩
  · rw [hs] at hsc
    obtain ⟨w2, h2, h3, h4⟩ := stores_run hm (atoms := [("output_type", [.str (if bs.isEmpty then "no" else "yes")])])
      (by intro a ha; simp only [List.mem_cons, List.not_mem_nil, or_false] at ha; subst ha; exact (by decide +kernel : outputRelations.has "output_type" = true)) [("Body", body)] hbuf n
    refine ⟨w2, i1 _ [[("Body", body)]] ?_, by simpa [bindVars] using h3, h4⟩
    show (solverAt (modelOf ms) (n + 3)).solve ynIntent.body [("Body", body)] w = _
    rw [hd]
    cases bs with
    | nil =>
      have h0 : (solverAt (modelOf ms) (n + 2)).solve (.list [.tuple [.str "scoped", .var "Body"],
          .tuple [.str "store", .list [.tuple [.str "output_type", .str "yes"]]]]) [("Body", body)] w = .ok w' (.rows []) := solve_pair_none hsc
      rw [solveDisjuncts, M.bind_ok h0]
      have h5 : (solverAt (modelOf ms) (n + 2)).solve (.list [.tuple [.str "store", .list [.tuple [.str "output_type", .str "no"]]]]) [("Body", body)] w' =
        .ok w2 (.rows [[("Body", body)]]) := h2
      show solveDisjuncts (solverAt (modelOf ms) (n + 2)) [("Body", body)]
        [.list [.tuple [.str "store", .list [.tuple [.str "output_type", .str "no"]]]]] w' = _
      rw [solveDisjuncts, M.bind_ok h5]
      rfl
    | cons b bs =>
      have h0 : (solverAt (modelOf ms) (n + 2)).solve (.list [.tuple [.str "scoped", .var "Body"],
          .tuple [.str "store", .list [.tuple [.str "output_type", .str "yes"]]]]) [("Body", body)] w = .ok w2 (.rows [[("Body", body)]]) := solve_pair hsc h2
      rw [solveDisjuncts, M.bind_ok h0]
      rfl
  · rw [hs] at hsc
    show (solverAt (modelOf ms) (n + 3)).solve ynIntent.body [("Body", body)] w = _
    rw [hd, solveDisjuncts, M.bind_err (solve_pair_err hsc)]
  · rw [hs] at hsc
    show (solverAt (modelOf ms) (n + 3)).solve ynIntent.body [("Body", body)] w = _
    rw [hd, solveDisjuncts, M.bind_run, solve_pair_oof hsc]

end

/-! ## What the answers say -/

/-- The answers to a query, asked when other variables than those of the query have values, are as many as there are ways to satisfy the query,
and the values of a variable in them are those it has in these ways. -/
theorem values_exact {P : Program} {q : List Form} {rb : Binding} {bs : List Binding} (hb : PlainB rb) (hnot : ∀ y, rb.has y = true → y ∉ formVars q)
    (hsound : ∀ b' ∈ bs, (∀ x v, b'.get x = some v → Plain v) ∧ (∀ x v, rb.get x = some v → b'.get x = some v) ∧
        (∀ x, b'.has x = true ↔ rb.has x = true ∨ x ∈ formBinds q) ∧
        ∀ σ : Assignment, (∀ x, Plain (σ x)) → (∀ x v, b'.get x = some v → σ x = v) → SatAll P q (fun x => rb.has x = true) σ)
    (hcomplete : ∀ σ : Assignment, (∀ x, Plain (σ x)) → (∀ x v, rb.get x = some v → σ x = v) →
        SatAll P q (fun x => rb.has x = true) σ → ∃ b' ∈ bs, ∀ x v, b'.get x = some v → σ x = v) :
    (bs ≠ [] ↔ ∃ σ : Assignment, (∀ y, Plain (σ y)) ∧ SatAll P q (fun _ => False) σ) ∧
    ∀ x ∈ formBinds q, ∀ v, v ∈ valuesOf x bs ↔ ∃ σ : Assignment, (∀ y, Plain (σ y)) ∧ σ x = v ∧ SatAll P q (fun _ => False) σ := by
  have hB : ∀ y ∈ formVars q, (rb.has y = true) ↔ False := fun y hy => ⟨fun h => hnot y h hy, False.elim⟩
  have h1 : ∀ b' ∈ bs, ∃ σ : Assignment, (∀ y, Plain (σ y)) ∧ (∀ y v, b'.get y = some v → σ y = v) ∧ SatAll P q (fun _ => False) σ := by
    intro b' hb'
    obtain ⟨hp, _, _, hs⟩ := hsound b' hb'
    have hpl : ∀ y, Plain ((b'.get y).getD (.num 0)) := by
      intro y
      cases hg : b'.get y with
      | none => exact ⟨by simp, rfl, rfl⟩
      | some v => exact hp y v hg
    refine ⟨fun y => (b'.get y).getD (.num 0), hpl, fun y v hy => by simp [hy], ?_⟩
    exact (satAll_congr P q hB hpl hpl fun _ _ => rfl).1 (hs _ hpl fun y v hy => by simp [hy])
  have h2 : ∀ σ : Assignment, (∀ y, Plain (σ y)) → SatAll P q (fun _ => False) σ → ∃ b' ∈ bs, ∀ y, rb.has y = false → ∀ v, b'.get y = some v → σ y = v := by
    intro σ hp hs
    have hpl : ∀ y, Plain ((rb.get y).getD (σ y)) := by
      intro y
      cases hg : rb.get y with
      | none => exact hp y
      | some v => exact hb y v hg
    obtain ⟨b', hb', hag⟩ := hcomplete (fun y => (rb.get y).getD (σ y)) hpl (fun y v hy => by simp [hy])
      ((satAll_congr P q hB hpl hp fun y hy => by
        cases hg : rb.get y with
        | none => rfl
        | some v => exact absurd hy (hnot y (by simp [Dict.has, hg]))).2 hs)
    refine ⟨b', hb', fun y hy v hv => ?_⟩
    have := hag y v hv
    have hg : rb.get y = none := by simpa [Dict.has] using hy
    simpa [hg] using this
  refine ⟨⟨fun hne => ?_, ?_⟩, fun x hx v => ?_⟩
  · obtain ⟨b, hb'⟩ := List.exists_mem_of_ne_nil bs hne
    obtain ⟨σ, h, _, hs⟩ := h1 b hb'
    exact ⟨σ, h, hs⟩
  · rintro ⟨σ, hp, hs⟩ rfl
    obtain ⟨b, hb', _⟩ := h2 σ hp hs
    cases hb'
  · have hxv : rb.has x = false := by
      cases h : rb.has x with
      | false => rfl
      | true => exact absurd (formBinds_vars q x hx) (hnot x h)
    simp only [valuesOf, List.mem_filterMap]
    constructor
    · rintro ⟨b, hb', hv⟩
      obtain ⟨σ, h, hag, hs⟩ := h1 b hb'
      exact ⟨σ, h, hag x v hv, hs⟩
    · rintro ⟨σ, hp, rfl, hs⟩
      obtain ⟨b, hb', hag⟩ := h2 σ hp hs
      obtain ⟨v, hv⟩ := (Dict.has_iff b x).1 (((hsound b hb').2.2.1 x).2 (.inr hx))
      exact ⟨b, hb', by rw [hv, hag x hxv v hv]⟩

/-! ## Specification: write rules for the types of output -/

/-- The condition of the write rule asks for the type `t` of the output, and then for more. -/
def ForType (rule : WRule) (t : String) (more : List Value) : Prop := rule.condition = .tuple [.str "output_type", .str t] :: more

/-- `rule` is the first write rule for sentences of type `t`; the rules before it are for other types. -/
def RepliesWith (g : Grammar WriteSem) (t : String) (rule : WRule) : Prop :=
  ∃ pre post, g.findRules ['s'] 0 = pre ++ rule :: post ∧ ∀ r ∈ pre, ∃ t' more, t' ≠ t ∧ ForType r t' more

/-- A constituent with the argument `E1`. -/
def overE1 (cat : Str) : Constituent := ⟨cat, [['E', '1']], .relation, false, false⟩

/-- `s() -> format(E1)` with the condition `[('output_type', 'list'), ('output_list', E1)]`, formatted by `f`
(`tests/integration/hello_world/write_grammar.py:11-15`). -/
structure ListRule (rule : WRule) (f : List Value → Except Err Value) : Prop where
  condition : ForType rule "list" [.tuple [.str "output_list", .var "E1"]]
  cons : rule.cons = [overE1 ['f', 'o', 'r', 'm', 'a', 't']]
  format : Formats rule f
  post : ∀ f, ¬ PostBy rule f

/-- `s() -> value(E1)` with the condition `[('output_type', 'value'), ('output_value', E1)]` (`tests/integration/chat80/write_grammar.py:20-23`). -/
structure ValueRule (rule : WRule) : Prop where
  condition : ForType rule "value" [.tuple [.str "output_value", .var "E1"]]
  cons : rule.cons = [overE1 ['v', 'a', 'l', 'u', 'e']]
  post : ∀ f, ¬ PostBy rule f

/-- `s() -> 'text'` with the condition `[('output_type', t)]` (`tests/integration/chat80/write_grammar.py:12-19`). -/
structure TextRule (rule : WRule) (t : String) (text : Str) : Prop where
  condition : ForType rule t []
  cons : rule.cons = [textCons text]
  post : ∀ f, ¬ PostBy rule f

/-! ## Generating the reply -/

section
variable {ms : List (Module W)} {l : Lens W SimpleStore} {w : W} {wg : Grammar WriteSem} {k : Nat}

theorem combineWords_one (v : Value) : combineWords [v] = v := by
  cases v <;> simp [combineWords, textsOf, String.join]

theorem isStored_type {t : String} {more : Query} (hmore : ∀ a ∈ more, a.1 ≠ "output_type") (t' : String) :
    IsStored (stored (("output_type", [.str t]) :: more)) "output_type" [.str t'] ↔ t' = t := by
  simp only [IsStored, stored, List.map_cons, List.mem_cons, List.mem_map]
  constructor
  · rintro ⟨r, rfl | ⟨a, ha, rfl⟩, h1, h2⟩
    · simpa using h2.symm
    · exact absurd h1 (hmore a ha)
  · rintro rfl
    exact ⟨_, .inl rfl, rfl, rfl⟩

theorem bufferOk_stored {atoms : Query} (h : ∀ a ∈ atoms, ∃ cs, outputRelations.get a.1 = some cs ∧ cs.Nodup ∧ a.2.length = cs.length ∧ ∀ v ∈ a.2, Plain v) :
    BufferOk (stored atoms) := by
  intro r hr
  simp only [stored, List.mem_map] at hr
  obtain ⟨a, ha, rfl⟩ := hr
  obtain ⟨cs, h1, h2, h3, h4⟩ := h a ha
  exact ⟨⟨by simp [h1], by simpa [h1] using h2, by simpa [h1] using h3, fun v hv => (h4 v hv).1⟩, h4⟩

/-- A rule for another type does not apply. -/
theorem forType_fails (hm : StoresIn ms l outputRelations w) {log : List LogRecord} (hw : Represents (l.get w) log) (hlog : BufferOk log) {r : WRule}
    {t : String} {more : List Value} (hr : ForType r t more) (hn : ¬ IsStored log "output_type" [.str t]) :
    CondFails (solverAt (modelOf ms) (k + 1)) [] w r := by
  have h0 : anteBinding r.ante.args [] = [] := by simp [anteBinding]
  unfold ForType at hr
  refine ⟨by simp [hr], .rows [], ?_, rfl⟩
  rw [h0, hr]
  rcases type_condition hm hw hlog t k with ⟨_, h⟩ | ⟨h, _⟩
  · exact absurd h hn
  · exact solve_pair_none h

/-- The rule for the type of what is in the buffer is found. -/
theorem reply_found (hm : StoresIn ms l outputRelations w) {log : List LogRecord} (hw : Represents (l.get w) log) (hlog : BufferOk log) {t : String}
    (ht : ∀ t', IsStored log "output_type" [.str t'] → t' = t) {rule : WRule} (hrule : RepliesWith wg t rule) {b : Binding}
    (hc : CondHolds (solverAt (modelOf ms) (k + 1)) [] w rule b) :
    findRule (solverAt (modelOf ms) (k + 1)) wg [] ['s'] [] w = .ok w (some rule, b) := by
  obtain ⟨pre, post, hsplit, hpre⟩ := hrule
  refine C55_first_unused_partial (p := pre) (q := []) (rest := post) (by simpa using hsplit) (fun r hr => ?_) (by simp) hc (by simp)
  obtain ⟨t', more, hne, hf⟩ := hpre r hr
  exact forType_fails hm hw hlog hf fun h => hne (ht t' h)

/-- No rule is found if there is no output. -/
theorem reply_none (hm : StoresIn ms l outputRelations w) (hw : l.get w = SimpleStore.clear)
    (hall : ∀ r ∈ wg.findRules ['s'] 0, ∃ t more, ForType r t more) (n : Nat) :
    generateOutput (solverAt (modelOf ms) (k + 1)) wg l (n + 1) w = .err w (.exception "No rule found") := by
  have hr : Represents (l.get w) [] := by intro t; simp [hw, SimpleStore.clear]
  have : findRule (solverAt (modelOf ms) (k + 1)) wg [] ['s'] [] w = .ok w (none, (wg.findRules ['s'] 0).foldl (fun _ r => anteBinding r.ante.args []) []) := by
    unfold findRule
    generalize hb0 : ([] : Binding) = b0
    simp only [List.length_nil]
    rw [← hb0]
    revert hall
    generalize wg.findRules ['s'] 0 = rules
    intro hall
    generalize ([] : Binding) = b1
    induction rules generalizing b1 with
    | nil => rfl
    | cons r rules ih =>
      obtain ⟨t, more, hf⟩ := hall r (by simp)
      rw [findRuleLoop_step (tryWriteRule_fails none (forType_fails hm hr (by simp [BufferOk]) hf (by simp [IsStored])))]
      exact ih (fun r hr => hall r (List.mem_cons_of_mem _ hr)) _
  rw [generateOutput]
  refine M.bind_err ?_
  rw [genNode, M.bind_ok this]
  rfl

variable {rule : WRule}

theorem list_reply (hm : StoresIn ms l outputRelations w) {els : List Value} (hels : ∀ v ∈ els, Plain v)
    (hw : Represents (l.get w) (stored [("output_type", [.str "list"]), ("output_list", [.list els])])) {f : List Value → Except Err Value}
    (hrule : RepliesWith wg "list" rule) (hl : ListRule rule f) (n : Nat) :
    generateOutput (solverAt (modelOf ms) (k + 1)) wg l (n + 1) w = match f [.list els] with
      | .ok v => .ok (l.put SimpleStore.clear w) v
      | .error e => .err w e := by
  have hpl : Plain (.list els) := ⟨by simp, rfl, by
    rw [legal]
    clear hw
    induction els with
    | nil => rfl
    | cons v els ih => simp [legalList, (hels v (by simp)).2.2, ih fun u hu => hels u (List.mem_cons_of_mem _ hu)]⟩
  have hlog : BufferOk (stored [("output_type", [.str "list"]), ("output_list", [.list els])]) := by
    refine bufferOk_stored fun a ha => ?_
    simp only [List.mem_cons, List.not_mem_nil, or_false] at ha
    rcases ha with rfl | rfl
    · exact ⟨["type"], by decide +kernel, by decide, rfl, by simp; exact ⟨by simp, rfl, rfl⟩⟩
    · exact ⟨["elements"], (by decide +kernel : outputRelations.get "output_list" = some ["elements"]), by decide, rfl, by simpa using hpl⟩
  have hty := fun t' => (isStored_type (t := "list") (more := [("output_list", [.list els])]) (by simp) t')
  obtain ⟨b, hc, hb⟩ : ∃ b, CondHolds (solverAt (modelOf ms) (k + 1)) [] w rule b ∧ b.get "E1" = some (.list els) := by
    have h0 : anteBinding rule.ante.args [] = [] := by simp [anteBinding]
    have hcond := hl.condition
    unfold ForType at hcond
    have hfirst : firstStored (stored [("output_type", [.str "list"]), ("output_list", [.list els])]) "output_list" = some [.list els] := by
      simp [firstStored, stored]
    rcases typed_condition hm hw hlog "list" (p := "output_list") (col := "elements") (by decide +kernel) "E1" k with ⟨b, rest, v, h1, _, h3, h4⟩ | ⟨_, h2⟩
    · rw [hfirst] at h3
      cases h3
      exact ⟨b, .inr ⟨by simp [hcond], rest, by rw [h0, hcond]; exact h1⟩, h4⟩
    · rw [hfirst] at h2
      exact absurd (h2 ((hty _).2 rfl)) (by simp)
  have hf := reply_found hm hw hlog (fun t' h => (hty t').1 h) hrule hc
  have hcv : consequentValues (overE1 ['f', 'o', 'r', 'm', 'a', 't']) b = [.list els] := by
    simp only [overE1, consequentValues, List.map_cons, List.map_nil, reduceCtorEq, if_false]
    rw [show String.ofList ['E', '1'] = "E1" from rfl, hb]; rfl
  obtain ⟨a, ha1, ha2⟩ := hl.format
  have hexec : callExec rule [.list els] = f [.list els] := by simp [callExec, WRule.parts, ha1, ha2]
  have hgc : ∀ used, genConsequent (genNode (solverAt (modelOf ms) (k + 1)) wg n) rule used (overE1 ['f', 'o', 'r', 'm', 'a', 't']) [.list els] =
      (do let v ← M.lift (f [.list els]); pure (used, v) : M W (List Nat × Value)) := by
    intro used
    rw [genConsequent, hexec]
    rfl
  cases hfe : f [.list els] with
  | ok v =>
    have hwords : genWords (genNode (solverAt (modelOf ms) (k + 1)) wg n) rule b rule.cons [rule.hash] w = .ok w ([rule.hash], [v]) := by
      rw [hl.cons, genWords, hcv, hgc, hfe]
      rfl
    have := generate_of_node (l := l) (genNode_words hf n hwords (parts_no_post.2 hl.post))
    rw [this, combineWords_one]
  | error e =>
    have hwords : genWords (genNode (solverAt (modelOf ms) (k + 1)) wg n) rule b rule.cons ([] ++ [rule.hash]) w = .err w e := by
      rw [hl.cons, genWords, hcv, hgc, hfe]
      rfl
    rw [generateOutput]
    refine M.bind_err ?_
    rw [genNode, M.bind_ok hf]
    dsimp only
    rw [M.bind_err hwords]

theorem value_reply (hm : StoresIn ms l outputRelations w) {v : Value} (hv : Plain v)
    (hw : Represents (l.get w) (stored [("output_type", [.str "value"]), ("output_value", [v])]))
    (hrule : RepliesWith wg "value" rule) (hl : ValueRule rule) (n : Nat) :
    generateOutput (solverAt (modelOf ms) (k + 1)) wg l (n + 1) w = .ok (l.put SimpleStore.clear w) v := by
  have hlog : BufferOk (stored [("output_type", [.str "value"]), ("output_value", [v])]) := by
    refine bufferOk_stored fun a ha => ?_
    simp only [List.mem_cons, List.not_mem_nil, or_false] at ha
    rcases ha with rfl | rfl
    · exact ⟨["type"], by decide +kernel, by decide, rfl, by simp; exact ⟨by simp, rfl, rfl⟩⟩
    · exact ⟨["value"], (by decide +kernel : outputRelations.get "output_value" = some ["value"]), by decide, rfl, by simpa using hv⟩
  have hty := fun t' => (isStored_type (t := "value") (more := [("output_value", [v])]) (by simp) t')
  obtain ⟨b, hc, hb⟩ : ∃ b, CondHolds (solverAt (modelOf ms) (k + 1)) [] w rule b ∧ b.get "E1" = some v := by
    have h0 : anteBinding rule.ante.args [] = [] := by simp [anteBinding]
    have hcond := hl.condition
    unfold ForType at hcond
    have hfirst : firstStored (stored [("output_type", [.str "value"]), ("output_value", [v])]) "output_value" = some [v] := by
      simp [firstStored, stored]
    rcases typed_condition hm hw hlog "value" (p := "output_value") (col := "value") (by decide +kernel) "E1" k with ⟨b, rest, u, h1, _, h3, h4⟩ | ⟨_, h2⟩
    · rw [hfirst] at h3
      cases h3
      exact ⟨b, .inr ⟨by simp [hcond], rest, by rw [h0, hcond]; exact h1⟩, h4⟩
    · rw [hfirst] at h2
      exact absurd (h2 ((hty _).2 rfl)) (by simp)
  have hf := reply_found hm hw hlog (fun t' h => (hty t').1 h) hrule hc
  have hcv : consequentValues (overE1 ['v', 'a', 'l', 'u', 'e']) b = [v] := by
    simp only [overE1, consequentValues, List.map_cons, List.map_nil, reduceCtorEq, if_false]
    rw [show String.ofList ['E', '1'] = "E1" from rfl, hb]; rfl
  have hwords : genWords (genNode (solverAt (modelOf ms) (k + 1)) wg n) rule b rule.cons [rule.hash] w = .ok w ([rule.hash], [v]) := by
    rw [hl.cons, genWords, hcv]
    rfl
  have := generate_of_node (l := l) (genNode_words hf n hwords (parts_no_post.2 hl.post))
  rw [this, combineWords_one]

theorem text_reply (hm : StoresIn ms l outputRelations w) {t : String} {text : Str}
    (hw : Represents (l.get w) (stored [("output_type", [.str t])]))
    (hrule : RepliesWith wg t rule) (hl : TextRule rule t text) (n : Nat) :
    generateOutput (solverAt (modelOf ms) (k + 1)) wg l (n + 1) w = .ok (l.put SimpleStore.clear w) (.str (String.ofList text)) := by
  have hlog : BufferOk (stored [("output_type", [.str t])]) := by
    refine bufferOk_stored fun a ha => ?_
    simp only [List.mem_cons, List.not_mem_nil, or_false] at ha
    subst ha
    exact ⟨["type"], (by decide +kernel : outputRelations.get "output_type" = some ["type"]), by decide, rfl, by simp; exact ⟨by simp, rfl, rfl⟩⟩
  have hty := fun t' => (isStored_type (t := t) (more := []) (by simp) t')
  have hc : CondHolds (solverAt (modelOf ms) (k + 1)) [] w rule [] := by
    have h0 : anteBinding rule.ante.args [] = [] := by simp [anteBinding]
    have hcond := hl.condition
    unfold ForType at hcond
    rcases type_condition hm hw hlog t k with ⟨h, _⟩ | ⟨_, h⟩
    · exact .inr ⟨by simp [hcond], [], by rw [h0, hcond]; exact h⟩
    · exact absurd ((hty t).2 rfl) h
  have hf := reply_found hm hw hlog (fun t' h => (hty t').1 h) hrule hc
  have hwords : genWords (genNode (solverAt (modelOf ms) (k + 1)) wg n) rule [] rule.cons [rule.hash] w =
      .ok w ([rule.hash], [.str (String.ofList text)]) := by
    rw [hl.cons, genWords]
    rfl
  have := generate_of_node (l := l) (genNode_words hf n hwords (parts_no_post.2 hl.post))
  rw [this, combineWords_one]

end

/-! ## Intent and reply together -/

/-- `v` is the value of `x` in some way to satisfy the query. -/
def IsAnswer (P : Program) (q : List Form) (x : String) (v : Value) : Prop :=
  ∃ σ : Assignment, (∀ y, Plain (σ y)) ∧ σ x = v ∧ SatAll P q (fun _ => False) σ

/-- There is a way to satisfy the query. -/
def Satisfiable (P : Program) (q : List Form) : Prop := ∃ σ : Assignment, (∀ y, Plain (σ y)) ∧ SatAll P q (fun _ => False) σ

theorem IsAnswer.plain {P : Program} {q : List Form} {x : String} {v : Value} (h : IsAnswer P q x v) : Plain v := by
  obtain ⟨σ, h1, rfl, _⟩ := h
  exact h1 x

/-- What is needed to ask: an output buffer, which is empty, and a query that can be asked without values for its variables, whose names are proper. -/
structure Askable (ms : List (Module W)) (w : W) (l : Lens W SimpleStore) (ar : String → Option Nat) (calls : Calls) (q : List Form) : Prop where
  buffer : StoresIn ms l outputRelations w
  empty : l.get w = SimpleStore.clear
  ok : FormsOk ar q (fun _ => False)
  called : FormsCalled calls q (fun _ => False)
  names : legal (.list (formValues q)) = true

section
variable {ms : List (Module W)} {w : W} {l : Lens W SimpleStore} {ar : String → Option Nat} {calls : Calls} {q : List Form} {P : Program}
  {g : W → InfState} {wg : Grammar WriteSem} {rule : WRule} {n : Nat} {w' : W} {out : SolOut}

/-- The query inside the intent. -/
theorem inner_exact (H : BaseIn ms w ar calls P) (A : Askable ms w l ar calls q) {rb : Binding}
    (hrb : ∀ y v, rb.get y = some v → y ∉ formVars q ∧ Plain v) (h : (solverAt (modelOf ms) n).solve (.list (formValues q)) rb w = .ok w' out) :
    w' = w ∧ ∃ bs, out = .rows bs ∧ (bs ≠ [] ↔ Satisfiable P q) ∧ ∀ x ∈ formBinds q, ∀ v, v ∈ valuesOf x bs ↔ IsAnswer P q x v := by
  have hnot : ∀ y, rb.has y = true → y ∉ formVars q := by
    intro y hy
    obtain ⟨v, hv⟩ := (Dict.has_iff _ _).1 hy
    exact (hrb y v hv).1
  have hdom : ∀ y ∈ formVars q, False ↔ dom rb y := fun y hy => ⟨False.elim, fun h => hnot y h hy⟩
  have hb : PlainB rb := fun y v h => (hrb y v h).2
  obtain ⟨h1, bs, h2, h3⟩ := forms_exact H n q rb (formsOk_congr q hdom A.ok) (formsCalled_congr q hdom A.called) hb _ _ h
  obtain ⟨h4, h5⟩ := values_exact hb hnot h3.sound h3.complete
  exact ⟨h1, bs, h2, h4, h5⟩

theorem Askable.plain (A : Askable ms w l ar calls q) : Plain (.list (formValues q)) := ⟨by simp, rfl, A.names⟩

theorem binding_two {x y : String} {u v : Value} (hx : x ∉ formVars q) (hy : y ∉ formVars q) (hu : Plain u) (hv : Plain v) :
    ∀ z t, Dict.get [(x, u), (y, v)] z = some t → z ∉ formVars q ∧ Plain t := by
  intro z t h
  simp only [Dict.get_cons, Dict.get_nil] at h
  split at h
  · rename_i e; subst e; cases h; exact ⟨hx, hu⟩
  · split at h
    · rename_i e; subst e; cases h; exact ⟨hy, hv⟩
    · simp at h

theorem str_plain (s : String) : Plain (.str s) := ⟨by simp, rfl, rfl⟩

theorem StoresIn.congr {rels : Dict (List String)} (hm : StoresIn ms l rels w) {w2 : W} (h : ∀ u, l.put u w2 = l.put u w) : StoresIn ms l rels w2 :=
  ⟨fun s => by rw [h]; exact hm.store s, fun s p cs hp => by rw [h]; exact hm.rels s p cs hp⟩

theorem put_clear (A : Askable ms w l ar calls q) {w2 : W} (h : ∀ u, l.put u w2 = l.put u w) : l.put SimpleStore.clear w2 = w := by
  rw [h, ← A.empty, l.put_get]

theorem list_general (H : BaseIn ms w ar calls P) (A : Askable ms w l ar calls q) (hi : IntentIn ms w g "intent_list" listIntent)
    (hc : NotDefined ms w "find_all") (hE : "E1" ∉ formVars q) (hS : "Sem" ∉ formVars q) {x : String} (hx : x ∈ formBinds q) {f : List Value → Except Err Value}
    (hrule : RepliesWith wg "list" rule) (hl : ListRule rule f)
    (h : (solverAt (modelOf ms) n).solve (.list [.tuple [.str "intent_list", .str x, .list (formValues q)]]) [] w = .ok w' out) :
    out = .rows [[]] ∧ ∃ els : List Value, els.Nodup ∧ (∀ v, v ∈ els ↔ IsAnswer P q x v) ∧
      ∀ k m, generateOutput (solverAt (modelOf ms) (k + 1)) wg l (m + 1) w' = match f [.list els] with
        | .ok v => .ok w v
        | .error e => .err w' e := by
  match n with
  | 0 => simp [solverAt] at h
  | 1 =>
    obtain ⟨_, _, i3⟩ := intent_step (n := 0) hi (xs := ["E1", "Sem"]) (args := [.str x, .list (formValues q)]) rfl (by decide) rfl (values_two rfl rfl) (by decide) rfl
    rw [i3 rfl] at h
    simp at h
  | 2 =>
    obtain ⟨_, _, i3⟩ := intent_step (n := 1) hi (xs := ["E1", "Sem"]) (args := [.str x, .list (formValues q)]) rfl (by decide) rfl (values_two rfl rfl) (by decide) rfl
    obtain ⟨_, f2⟩ := find_err (n := 0) (w := w) (.inl rfl) hc (b := [("E1", .str x), ("Sem", .list (formValues q))]) (a0 := .var "E1") (a := .var "Sem") (r := "Elements") rfl rfl
    rw [i3 (solve_pair_oof (f2 rfl))] at h
    simp at h
  | n + 3 =>
    obtain ⟨s1, s2, s3⟩ := list_stores (l := l) (n := n) (x := x) hc hi (body := .list (formValues q)) rfl
    cases hs : (solverAt (modelOf ms) (n + 1)).solve (.list (formValues q)) [("E1", .str x), ("Sem", .list (formValues q))] w with
    | oof => rw [s3 hs] at h; simp at h
    | err w1 e => rw [s2 _ _ hs] at h; simp at h
    | ok w1 o =>
      obtain ⟨rfl, bs, rfl, _, h5⟩ := inner_exact H A (binding_two hE hS (str_plain x) A.plain) hs
      obtain ⟨w2, h6, h7, h8⟩ := s1 _ _ A.buffer A.empty hs
      rw [h6] at h
      simp only [Res.ok.injEq] at h
      obtain ⟨rfl, rfl⟩ := h
      have hmem : ∀ v, v ∈ (valuesOf x bs).eraseDups ↔ IsAnswer P q x v := fun v => by rw [List.mem_eraseDups]; exact h5 x hx v
      refine ⟨rfl, _, nodup_eraseDups_values _, hmem, fun k m => ?_⟩
      rw [list_reply (A.buffer.congr h8) (fun v hv => ((hmem v).1 hv).plain) h7 hrule hl m, put_clear A h8]

theorem value_general (H : BaseIn ms w ar calls P) (A : Askable ms w l ar calls q) (hi : IntentIn ms w g "intent_value" valueIntent)
    (hc : NotDefined ms w "find_one") (hE : "Variable" ∉ formVars q) (hS : "Sem" ∉ formVars q) {x : String} (hx : x ∈ formBinds q)
    (hrule : RepliesWith wg "value" rule) (hl : ValueRule rule)
    (h : (solverAt (modelOf ms) n).solve (.list [.tuple [.str "intent_value", .str x, .list (formValues q)]]) [] w = .ok w' out) :
    (∃ v, IsAnswer P q x v ∧ out = .rows [[]] ∧ ∀ k m, generateOutput (solverAt (modelOf ms) (k + 1)) wg l (m + 1) w' = .ok w v) ∨
    ((¬ ∃ v, IsAnswer P q x v) ∧ out = .rows [] ∧ w' = w) := by
  match n with
  | 0 => simp [solverAt] at h
  | 1 =>
    obtain ⟨_, _, i3⟩ := intent_step (n := 0) hi (xs := ["Variable", "Sem"]) (args := [.str x, .list (formValues q)]) rfl (by decide) rfl (values_two rfl rfl) (by decide) rfl
    rw [i3 rfl] at h
    simp at h
  | 2 =>
    obtain ⟨_, _, i3⟩ := intent_step (n := 1) hi (xs := ["Variable", "Sem"]) (args := [.str x, .list (formValues q)]) rfl (by decide) rfl (values_two rfl rfl) (by decide) rfl
    obtain ⟨_, f2⟩ := find_err (n := 0) (w := w) (.inr rfl) hc (b := [("Variable", .str x), ("Sem", .list (formValues q))]) (a0 := .var "Variable") (a := .var "Sem") (r := "Result") rfl rfl
    rw [i3 (solve_pair_oof (f2 rfl))] at h
    simp at h
  | n + 3 =>
    obtain ⟨s1, s2, s3⟩ := value_stores (l := l) (n := n) (x := x) hc hi (body := .list (formValues q)) rfl
    cases hs : (solverAt (modelOf ms) (n + 1)).solve (.list (formValues q)) [("Variable", .str x), ("Sem", .list (formValues q))] w with
    | oof => rw [s3 hs] at h; simp at h
    | err w1 e => rw [s2 _ _ hs] at h; simp at h
    | ok w1 o =>
      obtain ⟨rfl, bs, rfl, _, h5⟩ := inner_exact H A (binding_two hE hS (str_plain x) A.plain) hs
      have h6 := s1 _ _ A.buffer A.empty hs
      have h7 := h5 x hx
      cases hv : valuesOf x bs with
      | nil =>
        rw [hv] at h6 h7
        rw [h6] at h
        simp only [Res.ok.injEq] at h
        exact .inr ⟨fun ⟨v, hv⟩ => by simpa using (h7 v).2 hv, h.2.symm, h.1.symm⟩
      | cons v vs =>
        rw [hv] at h6 h7
        obtain ⟨w2, h8, h9, h10⟩ := h6
        rw [h8] at h
        simp only [Res.ok.injEq] at h
        obtain ⟨rfl, rfl⟩ := h
        have ha := (h7 v).1 (by simp)
        refine .inl ⟨v, ha, rfl, fun k m => ?_⟩
        rw [value_reply (A.buffer.congr h10) ha.plain h9 hrule hl m, put_clear A h10]

theorem yn_general (H : BaseIn ms w ar calls P) (A : Askable ms w l ar calls q) (hi : IntentIn ms w g "intent_yn" ynIntent)
    (hB : "Body" ∉ formVars q) {yes no : WRule} {tyes tno : Str}
    (hyes : RepliesWith wg "yes" yes) (hly : TextRule yes "yes" tyes) (hno : RepliesWith wg "no" no) (hln : TextRule no "no" tno)
    (h : (solverAt (modelOf ms) n).solve (.list [.tuple [.str "intent_yn", .list (formValues q)]]) [] w = .ok w' out) :
    out = .rows [[]] ∧ ∃ text, (Satisfiable P q ∧ text = tyes ∨ ¬ Satisfiable P q ∧ text = tno) ∧
      ∀ k m, generateOutput (solverAt (modelOf ms) (k + 1)) wg l (m + 1) w' = .ok w (.str (String.ofList text)) := by
  have hc := H.core "scoped" (by decide +kernel)
  match n with
  | 0 => simp [solverAt] at h
  | 1 =>
    obtain ⟨_, _, i3⟩ := intent_step (n := 0) hi (xs := ["Body"]) (args := [.list (formValues q)]) rfl (by decide) rfl (by simp [Value.isVar]) (by decide) rfl
    rw [i3 rfl] at h
    simp at h
  | 2 =>
    obtain ⟨_, _, i3⟩ := intent_step (n := 1) hi (xs := ["Body"]) (args := [.list (formValues q)]) rfl (by decide) rfl (by simp [Value.isVar]) (by decide) rfl
    rw [i3 rfl] at h
    simp at h
  | 3 =>
    obtain ⟨_, _, i3⟩ := intent_step (n := 2) hi (xs := ["Body"]) (args := [.list (formValues q)]) rfl (by decide) rfl (by simp [Value.isVar]) (by decide) rfl
    have hsc := C13_scoped ms 0 w (.var "Body") (.list (formValues q)) [("Body", .list (formValues q))] hc rfl
    have : (solverAt (modelOf ms) 2).solve ynIntent.body [("Body", .list (formValues q))] w = .oof := by
      show solveDisjuncts (solverAt (modelOf ms) 1) [("Body", .list (formValues q))]
        [.list [.tuple [.str "scoped", .var "Body"], .tuple [.str "store", .list [.tuple [.str "output_type", .str "yes"]]]],
         .list [.tuple [.str "store", .list [.tuple [.str "output_type", .str "no"]]]]] w = .oof
      rw [solveDisjuncts, M.bind_run, solve_pair_oof hsc]
    rw [i3 this] at h
    simp at h
  | n + 4 =>
    obtain ⟨s1, s2, s3⟩ := yn_stores (l := l) (n := n) hc hi (body := .list (formValues q)) rfl
    cases hs : (solverAt (modelOf ms) (n + 1)).solve (.list (formValues q)) [("Body", .list (formValues q))] w with
    | oof => rw [s3 hs] at h; simp at h
    | err w1 e => rw [s2 _ _ hs] at h; simp at h
    | ok w1 o =>
      obtain ⟨rfl, bs, rfl, h4, _⟩ := inner_exact H A (rb := [("Body", .list (formValues q))]) (by
        intro z t hz
        simp only [Dict.get_cons, Dict.get_nil] at hz
        split at hz
        · rename_i e; subst e; cases hz; exact ⟨hB, A.plain⟩
        · simp at hz) hs
      obtain ⟨w2, h6, h7, h8⟩ := s1 _ _ A.buffer A.empty hs
      rw [h6] at h
      simp only [Res.ok.injEq] at h
      obtain ⟨rfl, rfl⟩ := h
      refine ⟨rfl, ?_⟩
      cases bs with
      | nil =>
        refine ⟨tno, .inr ⟨fun hh => h4.2 hh rfl, rfl⟩, fun k m => ?_⟩
        rw [text_reply (A.buffer.congr h8) h7 hno hln m, put_clear A h8]
      | cons b bs =>
        refine ⟨tyes, .inl ⟨h4.1 (by simp), rfl⟩, fun k m => ?_⟩
        rw [text_reply (A.buffer.congr h8) h7 hyes hly m, put_clear A h8]

end

section
variable {ar : String → Option Nat} {tables : List (Dict (List (List Value)))} {rs : List HornRule} {l : Lens W SimpleStore} {q : List Form}
  {g : W → InfState} {wg : Grammar WriteSem} {rule : WRule} {n : Nat} {w' : W} {out : SolOut}

/-- **C93** (lists) If the intent to list `x` returns, then the reply is the format of a list that holds precisely the values that `x` has in the ways to
satisfy the query over facts and (recursive) rules, each once. After the reply the world is as it was before the question. -/
theorem C93_list (K : KnowledgeBase W ar tables rs) (hrr : HeadsBound rs) (hcore : ∀ p ∈ coreNames, NotDefined K.others K.world p)
    (A : Askable K.others K.world l ar anyCall q) (hi : IntentIn K.others K.world g "intent_list" listIntent)
    (hc : NotDefined K.others K.world "find_all") (hE : "E1" ∉ formVars q) (hS : "Sem" ∉ formVars q) {x : String} (hx : x ∈ formBinds q)
    {f : List Value → Except Err Value} (hrule : RepliesWith wg "list" rule) (hl : ListRule rule f)
    (h : (solverAt (modelOf K.others) n).solve (.list [.tuple [.str "intent_list", .str x, .list (formValues q)]]) [] K.world = .ok w' out) :
    out = .rows [[]] ∧ ∃ els : List Value, els.Nodup ∧ (∀ v, v ∈ els ↔ IsAnswer (program tables rs) q x v) ∧
      ∀ k m, generateOutput (solverAt (modelOf K.others) (k + 1)) wg l (m + 1) w' = match f [.list els] with
        | .ok v => .ok K.world v
        | .error e => .err w' e :=
  list_general (K.base hrr hcore).toIn A hi hc hE hS hx hrule hl h

/-- **C93** (values) If the intent to tell the value of `x` returns, then the reply is a value that `x` has in some way to satisfy the query; if there is none
then the intent fails and nothing is put out. -/
theorem C93_value (K : KnowledgeBase W ar tables rs) (hrr : HeadsBound rs) (hcore : ∀ p ∈ coreNames, NotDefined K.others K.world p)
    (A : Askable K.others K.world l ar anyCall q) (hi : IntentIn K.others K.world g "intent_value" valueIntent)
    (hc : NotDefined K.others K.world "find_one") (hE : "Variable" ∉ formVars q) (hS : "Sem" ∉ formVars q) {x : String} (hx : x ∈ formBinds q)
    (hrule : RepliesWith wg "value" rule) (hl : ValueRule rule)
    (h : (solverAt (modelOf K.others) n).solve (.list [.tuple [.str "intent_value", .str x, .list (formValues q)]]) [] K.world = .ok w' out) :
    (∃ v, IsAnswer (program tables rs) q x v ∧ out = .rows [[]] ∧
      ∀ k m, generateOutput (solverAt (modelOf K.others) (k + 1)) wg l (m + 1) w' = .ok K.world v) ∨
    ((¬ ∃ v, IsAnswer (program tables rs) q x v) ∧ out = .rows [] ∧ w' = K.world) :=
  value_general (K.base hrr hcore).toIn A hi hc hE hS hx hrule hl h

/-- **C93** (yes or no) If the intent to tell whether something is so returns, then the reply is the text for "yes" if the query can be satisfied, and the
text for "no" if it cannot. -/
theorem C93_yes_no (K : KnowledgeBase W ar tables rs) (hrr : HeadsBound rs) (hcore : ∀ p ∈ coreNames, NotDefined K.others K.world p)
    (A : Askable K.others K.world l ar anyCall q) (hi : IntentIn K.others K.world g "intent_yn" ynIntent)
    (hB : "Body" ∉ formVars q) {yes no : WRule} {tyes tno : Str}
    (hyes : RepliesWith wg "yes" yes) (hly : TextRule yes "yes" tyes) (hno : RepliesWith wg "no" no) (hln : TextRule no "no" tno)
    (h : (solverAt (modelOf K.others) n).solve (.list [.tuple [.str "intent_yn", .list (formValues q)]]) [] K.world = .ok w' out) :
    out = .rows [[]] ∧ ∃ text, (Satisfiable (program tables rs) q ∧ text = tyes ∨ ¬ Satisfiable (program tables rs) q ∧ text = tno) ∧
      ∀ k m, generateOutput (solverAt (modelOf K.others) (k + 1)) wg l (m + 1) w' = .ok K.world (.str (String.ofList text)) :=
  yn_general (K.base hrr hcore).toIn A hi hB hyes hly hno hln h

/-- Two lists of the answers hold the same values. -/
theorem answers_perm {P : Program} {x : String} {els els' : List Value} (h1 : els.Nodup) (h2 : els'.Nodup) (h3 : ∀ v, v ∈ els ↔ IsAnswer P q x v)
    (h4 : ∀ v, v ∈ els' ↔ IsAnswer P q x v) : els.Perm els' :=
  (List.perm_ext_iff_of_nodup h1 h2).2 fun v => (h3 v).trans (h4 v).symm

/-- **C93** (determined) If the order of the elements does not matter for the format, as in `tests/integration/hello_world/write_grammar.py:4-8`, then
the reply depends on nothing but what satisfies the query: it is the format of any list of the answers. -/
theorem C93_determined (K : KnowledgeBase W ar tables rs) (hrr : HeadsBound rs) (hcore : ∀ p ∈ coreNames, NotDefined K.others K.world p)
    (A : Askable K.others K.world l ar anyCall q) (hi : IntentIn K.others K.world g "intent_list" listIntent)
    (hc : NotDefined K.others K.world "find_all") (hE : "E1" ∉ formVars q) (hS : "Sem" ∉ formVars q) {x : String} (hx : x ∈ formBinds q)
    {f : List Value → Except Err Value} (hrule : RepliesWith wg "list" rule) (hl : ListRule rule f)
    (hf : ∀ us vs : List Value, us.Perm vs → f [.list us] = f [.list vs])
    (h : (solverAt (modelOf K.others) n).solve (.list [.tuple [.str "intent_list", .str x, .list (formValues q)]]) [] K.world = .ok w' out)
    {answers : List Value} (hnd : answers.Nodup) (ha : ∀ v, v ∈ answers ↔ IsAnswer (program tables rs) q x v) (k m : Nat) :
    generateOutput (solverAt (modelOf K.others) (k + 1)) wg l (m + 1) w' = match f [.list answers] with
      | .ok v => .ok K.world v
      | .error e => .err w' e := by
  obtain ⟨_, els, h1, h2, h3⟩ := C93_list K hrr hcore A hi hc hE hS hx hrule hl h
  rw [h3, hf els answers (answers_perm h1 hnd h2 ha)]

/-- **C93** (returning) If the query is not nested deeper than `n + 1` over rules whose calls go down, then the intent to list returns or raises. -/
theorem C93_returns (K : KnowledgeBase W ar tables rs) (hrr : HeadsBound rs) (hcore : ∀ p ∈ coreNames, NotDefined K.others K.world p)
    {rank : String → Nat} (hrank : Descends (program tables rs) rank)
    (A : Askable K.others K.world l ar anyCall q) (hi : IntentIn K.others K.world g "intent_list" listIntent)
    (hc : NotDefined K.others K.world "find_all") (hE : "E1" ∉ formVars q) (hS : "Sem" ∉ formVars q) {x : String} (hn : formsDepth rank q ≤ n + 1) :
    (∃ w', (solverAt (modelOf K.others) (n + 3)).solve (.list [.tuple [.str "intent_list", .str x, .list (formValues q)]]) [] K.world = .ok w' (.rows [[]])) ∨
    ∃ w' e, (solverAt (modelOf K.others) (n + 3)).solve (.list [.tuple [.str "intent_list", .str x, .list (formValues q)]]) [] K.world = .err w' e := by
  have hrb := binding_two (x := "E1") (y := "Sem") hE hS (str_plain x) A.plain
  have hq : FormsOk ar q (fun y => Dict.has [("E1", Value.str x), ("Sem", .list (formValues q))] y = true) := by
    refine formsOk_congr q (fun y hy => ⟨False.elim, fun h => ?_⟩) A.ok
    obtain ⟨v, hv⟩ := (Dict.has_iff _ _).1 h
    exact (hrb y v hv).1 hy
  obtain ⟨s1, s2, _⟩ := list_stores (l := l) (n := n) (x := x) hc hi (body := .list (formValues q)) rfl
  rcases C71_returns K hrr hcore hrank hq (fun y v h => (hrb y v h).2) hn with ⟨bs, h⟩ | ⟨w', e, h⟩
  · obtain ⟨w2, h2, _⟩ := s1 _ _ A.buffer A.empty h
    exact .inl ⟨w2, h2⟩
  · exact .inr ⟨w', e, s2 _ _ h⟩

end

section
variable {ar : String → Option Nat} {calls : Calls} {tables : List (Dict (List (List Value)))} {rs : List FormRule} {I : Interpretation}
  {l : Lens W SimpleStore} {q : List Form} {g : W → InfState} {wg : Grammar WriteSem} {rule : WRule} {n : Nat} {w' : W} {out : SolOut}

/-- **C93** (lists, over rules with negation, quantifiers, numbers and alternatives) -/
theorem C93_list_forms (K : FormKnowledge W ar calls tables rs) (hcore : ∀ p ∈ coreNames, NotDefined K.others K.world p) (hI : Supported ar tables rs I)
    (A : Askable K.others K.world l ar calls q) (hi : IntentIn K.others K.world g "intent_list" listIntent)
    (hc : NotDefined K.others K.world "find_all") (hE : "E1" ∉ formVars q) (hS : "Sem" ∉ formVars q) {x : String} (hx : x ∈ formBinds q)
    {f : List Value → Except Err Value} (hrule : RepliesWith wg "list" rule) (hl : ListRule rule f)
    (h : (solverAt (modelOf K.others) n).solve (.list [.tuple [.str "intent_list", .str x, .list (formValues q)]]) [] K.world = .ok w' out) :
    out = .rows [[]] ∧ ∃ els : List Value, els.Nodup ∧ (∀ v, v ∈ els ↔ IsAnswer I.facts q x v) ∧
      ∀ k m, generateOutput (solverAt (modelOf K.others) (k + 1)) wg l (m + 1) w' = match f [.list els] with
        | .ok v => .ok K.world v
        | .error e => .err w' e :=
  list_general (base_form K.ok K.holds hI hcore) A hi hc hE hS hx hrule hl h

/-- **C93** (yes or no, over rules with negation, quantifiers, numbers and alternatives) -/
theorem C93_yes_no_forms (K : FormKnowledge W ar calls tables rs) (hcore : ∀ p ∈ coreNames, NotDefined K.others K.world p) (hI : Supported ar tables rs I)
    (A : Askable K.others K.world l ar calls q) (hi : IntentIn K.others K.world g "intent_yn" ynIntent)
    (hB : "Body" ∉ formVars q) {yes no : WRule} {tyes tno : Str}
    (hyes : RepliesWith wg "yes" yes) (hly : TextRule yes "yes" tyes) (hno : RepliesWith wg "no" no) (hln : TextRule no "no" tno)
    (h : (solverAt (modelOf K.others) n).solve (.list [.tuple [.str "intent_yn", .list (formValues q)]]) [] K.world = .ok w' out) :
    out = .rows [[]] ∧ ∃ text, (Satisfiable I.facts q ∧ text = tyes ∨ ¬ Satisfiable I.facts q ∧ text = tno) ∧
      ∀ k m, generateOutput (solverAt (modelOf K.others) (k + 1)) wg l (m + 1) w' = .ok K.world (.str (String.ofList text)) :=
  yn_general (base_form K.ok K.holds hI hcore) A hi hB hyes hly hno hln h

end

/-! ## Example: questions about a family -/

namespace Ex

/-- The rules about the family, the intents, and the output buffer. -/
abbrev Home : Type := InfState × (InfState × SimpleStore)

def homeIntents : Lens Home InfState := (Lens.snd _ _).comp (Lens.fst _ _)
def homeBuffer : Lens Home SimpleStore := (Lens.snd _ _).comp (Lens.snd _ _)

/-- The intents, inserted into an inference module. -/
def intentsState : InfState :=
  { relations := [("learn_rule", .learnRule), ("intent_list", .handleRule), ("intent_value", .handleRule), ("intent_yn", .handleRule)]
    rules := [("intent_list", [listIntent]), ("intent_value", [valueIntent]), ("intent_yn", [ynIntent])] }

example : insertAll [listIntent, valueIntent, ynIntent] InfState.init = .ok intentsState := by decide +kernel

def home : Home := (familyState, intentsState, SimpleStore.clear)

theorem home_ok : ProgramOk Home familyAr [family, [], []] ancestorRules := by
  refine ⟨⟨by decide, by decide, ?_⟩, ?_, ?_, family_ok.rulesOk⟩
  · intro p f h
    have hne : p ≠ "parent" ∧ p ≠ "ancestor" := by
      constructor <;> rintro rfl <;> simp [coreTable, Dict.get] at h
    simp [familyAr, hne.1, hne.2]
  · intro p k h
    rcases family_ok.defined p k h with ⟨db, hdb, h⟩ | h
    · simp only [List.mem_singleton] at hdb
      subst hdb
      exact .inl ⟨family, by simp, h⟩
    · exact .inr h
  · intro p k h db hdb rows hrows
    simp only [List.mem_cons, List.not_mem_nil, or_false] at hdb
    rcases hdb with rfl | rfl | rfl
    · exact family_ok.rowsOk p k h family (by simp) rows hrows
    · simp [Dict.get] at hrows
    · simp [Dict.get] at hrows

theorem family_pred {p : String} {k : Nat} (h : familyAr p = some k) : p = "parent" ∨ p = "ancestor" := by
  simp only [familyAr] at h
  split at h
  · exact .inl (by assumption)
  · split at h
    · exact .inr (by assumption)
    · simp at h

def homeKB : KnowledgeBase Home familyAr [family, [], []] ancestorRules where
  lens := Lens.fst _ _
  world := home
  before := [tableModule Home family]
  after := [inferenceModule homeIntents, outputBuffer homeBuffer]
  dbs := [family]
  dbs' := [[], []]
  split := rfl
  facts := ⟨tableModule_fact _ _ _, trivial⟩
  facts' := by
    refine ⟨fun p k h => ?_, fun p k h => ?_, trivial⟩ <;> rcases family_pred h with rfl | rfl <;> rfl
  ok := home_ok
  inserted := family_inserted

theorem home_undefined {p : String} (h1 : (tableModule Home family).relations home p = none) (h2 : (inferenceModule (Lens.fst InfState (InfState × SimpleStore))).relations home p = none)
    (h3 : (inferenceModule homeIntents).relations home p = none) (h4 : (outputBuffer homeBuffer).relations home p = none) : NotDefined homeKB.others home p := by
  intro m hm
  simp only [KnowledgeBase.others, homeKB, List.mem_append, List.mem_cons, List.not_mem_nil, or_false] at hm
  rcases hm with rfl | rfl | rfl | rfl <;> assumption

theorem home_core : ∀ p ∈ coreNames, NotDefined homeKB.others homeKB.world p := by
  intro p hp
  simp only [coreNames, List.mem_cons, List.not_mem_nil, or_false] at hp
  rcases hp with rfl | rfl | rfl | rfl | rfl | rfl | rfl | rfl | rfl | rfl | rfl | rfl | rfl <;> exact home_undefined rfl rfl rfl rfl

theorem home_stores : StoresIn homeKB.others homeBuffer outputRelations home where
  store := by
    intro s m hm
    simp only [KnowledgeBase.others, homeKB, List.mem_append, List.mem_cons, List.not_mem_nil, or_false] at hm
    rcases hm with rfl | rfl | rfl | rfl <;> rfl
  rels := by
    intro s p cs h
    have hp : p ∈ outputRelations.map Prod.fst := List.mem_map.2 ⟨_, Dict.mem_of_get h, rfl⟩
    simp only [outputRelations, List.map_cons, List.map_nil, List.mem_cons, List.not_mem_nil, or_false] at hp
    rcases hp with rfl | rfl | rfl | rfl | rfl | rfl | rfl <;> (cases h; rfl)

/-- The descendants of Ann who are not the parent of anyone. -/
def childless : List Form := [.atom "ancestor" [.str "ann", .var "$1"], .neg [.atom "parent" [.var "$1", .var "$2"]]]

theorem childless_ask : Askable homeKB.others homeKB.world homeBuffer familyAr anyCall childless where
  buffer := home_stores
  empty := rfl
  ok := by
    simp [childless, FormsOk, Form.Ok, familyAr, ArgsOk, Value.isVar, str_plain]
  called := formsCalled_any _ _
  names := by decide +kernel

theorem home_list : IntentIn homeKB.others homeKB.world homeIntents.get "intent_list" listIntent := ⟨rfl, rfl⟩
theorem home_value : IntentIn homeKB.others homeKB.world homeIntents.get "intent_value" valueIntent := ⟨rfl, rfl⟩
theorem home_yn : IntentIn homeKB.others homeKB.world homeIntents.get "intent_yn" ynIntent := ⟨rfl, rfl⟩

/-- `format_list` of `tests/integration/hello_world/write_grammar.py:19-21`. -/
def formatList : List Value → Except Err Value
  | [.list els] =>
    if els.all fun v => match v with | .str _ => true | _ => false then
      .ok (.str (String.intercalate ", " ((textsOf els).mergeSort fun a b => decide (a ≤ b))))
    else .error .typeError
  | _ => .error .typeError

/-- The rules of `tests/integration/chat80/write_grammar.py:7-23,28-32`. -/
def homeDicts (f : List Value → Except Err Value) : List WriteDict :=
  [⟨some ['s', '(', ')', ' ', '-', '>', ' ', '\'', 'O', 'K', '\''],
      some [.tuple [.str "output_type", .str "ok"]], none, none, none⟩,
   ⟨some ['s', '(', ')', ' ', '-', '>', ' ', '\'', 'y', 'e', 's', '\''],
      some [.tuple [.str "output_type", .str "yes"]], none, none, none⟩,
   ⟨some ['s', '(', ')', ' ', '-', '>', ' ', '\'', 'n', 'o', '\''],
      some [.tuple [.str "output_type", .str "no"]], none, none, none⟩,
   ⟨some ['s', '(', ')', ' ', '-', '>', ' ', 'v', 'a', 'l', 'u', 'e', '(', 'E', '1', ')'],
      some [.tuple [.str "output_type", .str "value"], .tuple [.str "output_value", .var "E1"]], none, none, none⟩,
   ⟨some ['s', '(', ')', ' ', '-', '>', ' ', 'f', 'o', 'r', 'm', 'a', 't', '(', 'E', '1', ')'],
      some [.tuple [.str "output_type", .str "list"], .tuple [.str "output_list", .var "E1"]], some f, none, none⟩]

/-- The rules, parsed. -/
def sayRule (H : Constituent → List Constituent → Nat) (t : String) (text : Str) : WRule :=
  GRule.new H sCons [textCons text] (.user ⟨[.tuple [.str "output_type", .str t]], none, none⟩)
def sayValue (H : Constituent → List Constituent → Nat) : WRule :=
  GRule.new H sCons [overE1 ['v', 'a', 'l', 'u', 'e']] (.user ⟨[.tuple [.str "output_type", .str "value"], .tuple [.str "output_value", .var "E1"]], none, none⟩)
def sayList (H : Constituent → List Constituent → Nat) (f : List Value → Except Err Value) : WRule :=
  GRule.new H sCons [overE1 ['f', 'o', 'r', 'm', 'a', 't']]
    (.user ⟨[.tuple [.str "output_type", .str "list"], .tuple [.str "output_list", .var "E1"]], some f, none⟩)

/-- The write grammar. -/
def homeWrite (H : Constituent → List Constituent → Nat) (f : List Value → Except Err Value) : Grammar WriteSem :=
  [(['s'], [(0, [sayRule H "ok" ['O', 'K'], sayRule H "yes" ['y', 'e', 's'], sayRule H "no" ['n', 'o'], sayValue H, sayList H f])])]

theorem parseSimpleRules_cons {A : Type} (uni : Char → Bool) (H : Constituent → List Constituent → Nat) (write : Bool) {r : SimpleRule A} {rs x xs}
    (h1 : parseSimpleRule uni H r write = .ok x) (h2 : parseSimpleRules uni H write rs = .ok xs) : parseSimpleRules uni H write (r :: rs) = .ok (x :: xs) := by
  simp only [parseSimpleRules, h1, h2]

theorem homeWrite_parsed (uni : Char → Bool) (H : Constituent → List Constituent → Nat) (f : List Value → Except Err Value) :
    parseWriteGrammar uni H (homeDicts f) = .ok (homeWrite H f) := by
  have h : parseSimpleRules uni H true ((homeDicts f).map WriteDict.rule) =
      .ok [sayRule H "ok" ['O', 'K'], sayRule H "yes" ['y', 'e', 's'], sayRule H "no" ['n', 'o'], sayValue H, sayList H f] :=
    parseSimpleRules_cons _ _ _ rfl (parseSimpleRules_cons _ _ _ rfl (parseSimpleRules_cons _ _ _ rfl
      (parseSimpleRules_cons _ _ _ rfl (parseSimpleRules_cons _ _ _ rfl rfl))))
  have hadd : ∀ (rs : List WRule) (r : WRule), r.ante = sCons → ruleVariants r = [r] →
      Grammar.addRule [(['s'], [(0, rs)])] r = [(['s'], [(0, rs ++ [r])])] := by
    intro rs r h1 h2
    simp [Grammar.addRule, h1, h2, sCons, Assoc.get, Assoc.set]
  simp only [parseWriteGrammar, parseGrammarRules, h, Grammar.new, List.foldl_cons, List.foldl_nil]
  rw [show Grammar.addRule [] (sayRule H "ok" ['O', 'K']) = [(['s'], [(0, [sayRule H "ok" ['O', 'K']])])] from rfl,
    hadd _ _ rfl rfl, hadd _ _ rfl rfl, hadd _ _ rfl rfl, hadd _ _ rfl rfl]
  rfl

theorem homeWrite_rules (H : Constituent → List Constituent → Nat) (f : List Value → Except Err Value) :
    RepliesWith (homeWrite H f) "yes" (sayRule H "yes" ['y', 'e', 's']) ∧ RepliesWith (homeWrite H f) "no" (sayRule H "no" ['n', 'o']) ∧
    RepliesWith (homeWrite H f) "value" (sayValue H) ∧ RepliesWith (homeWrite H f) "list" (sayList H f) := by
  have say : ∀ t text, ForType (sayRule H t text) t [] := fun _ _ => rfl
  refine ⟨⟨[_], _, rfl, ?_⟩, ⟨[_, _], _, rfl, ?_⟩, ⟨[_, _, _], _, rfl, ?_⟩, ⟨[_, _, _, _], _, rfl, ?_⟩⟩ <;> intro r hr <;>
    simp only [List.mem_cons, List.not_mem_nil, or_false] at hr
  · subst hr; exact ⟨_, _, by decide, say _ _⟩
  · rcases hr with rfl | rfl <;> exact ⟨_, _, by decide, say _ _⟩
  · rcases hr with rfl | rfl | rfl <;> exact ⟨_, _, by decide, say _ _⟩
  · rcases hr with rfl | rfl | rfl | rfl
    · exact ⟨_, _, by decide, say _ _⟩
    · exact ⟨_, _, by decide, say _ _⟩
    · exact ⟨_, _, by decide, say _ _⟩
    · exact ⟨"value", _, by decide, rfl⟩

theorem say_rules (H : Constituent → List Constituent → Nat) (f : List Value → Except Err Value) :
    (∀ t text, TextRule (sayRule H t text) t text) ∧ ValueRule (sayValue H) ∧ ListRule (sayList H f) f := by
  have post : ∀ (cs : List Constituent) (c : List Value) (e : Option (List Value → Except Err Value)) p,
      ¬ PostBy (GRule.new H sCons cs (.user ⟨c, e, none⟩)) p := by
    rintro cs c e p ⟨x, h1, h2⟩
    simp only [GRule.new, RuleSem.user.injEq] at h1
    subst h1
    simp at h2
  exact ⟨fun t text => ⟨rfl, rfl, post _ _ _⟩, ⟨rfl, rfl, post _ _ _⟩, ⟨rfl, rfl, ⟨_, rfl, rfl⟩, post _ _ _⟩⟩

theorem formatList_perm (us vs : List Value) (h : us.Perm vs) : formatList [.list us] = formatList [.list vs] := by
  have hall : ∀ f : Value → Bool, us.all f = vs.all f := by
    intro f
    rw [Bool.eq_iff_iff, List.all_eq_true, List.all_eq_true]
    exact ⟨fun hu v hv => hu v (h.mem_iff.2 hv), fun hv v hu => hv v (h.mem_iff.1 hu)⟩
  have htexts : (textsOf us).Perm (textsOf vs) := by
    have : ∀ ws : List Value, textsOf ws = ws.filterMap fun v => match v with | .str s => some s | _ => none := by
      intro ws
      induction ws with
      | nil => rfl
      | cons v ws ih => cases v <;> simp [textsOf, ih]
    rw [this, this]
    exact h.filterMap _
  have hsort : (textsOf us).mergeSort (fun a b => decide (a ≤ b)) = (textsOf vs).mergeSort (fun a b => decide (a ≤ b)) := by
    refine List.Perm.eq_of_pairwise (le := fun a b => a ≤ b) (fun a b _ _ h1 h2 => String.le_antisymm h1 h2) ?_ ?_
      (((List.mergeSort_perm _ _).trans htexts).trans (List.mergeSort_perm _ _).symm)
    · simpa using List.pairwise_mergeSort (le := fun a b : String => decide (a ≤ b)) (by simpa using fun a b c => String.le_trans) (by simpa using String.le_total) (textsOf us)
    · simpa using List.pairwise_mergeSort (le := fun a b : String => decide (a ≤ b)) (by simpa using fun a b c => String.le_trans) (by simpa using String.le_total) (textsOf vs)
  simp only [formatList, hall, hsort]

/-- The intent returns. -/
theorem childless_run : ∃ w', (solverAt (modelOf homeKB.others) 8).solve
    (.list [.tuple [.str "intent_list", .str "$1", .list (formValues childless)]]) [] home = .ok w' (.rows [[]]) := by
  have h : (match (solverAt (modelOf homeKB.others) 8).solve (.list [.tuple [.str "intent_list", .str "$1", .list (formValues childless)]]) [] home with
    | .ok _ out => decide (out = .rows [[]]) | _ => false) = true := by decide +kernel
  split at h
  · next hw => rw [of_decide_eq_true h] at hw; exact ⟨_, hw⟩
  · cases h

/-- The reply to "who are the childless descendants of Ann" is the sorted list of them, with the parsed write grammar. -/
example (uni : Char → Bool) (H : Constituent → List Constituent → Nat) : ∃ wg, parseWriteGrammar uni H (homeDicts formatList) = .ok wg ∧
    ∃ (w' : Home) (els : List Value), (solverAt (modelOf homeKB.others) 8).solve (.list [.tuple [.str "intent_list", .str "$1", .list (formValues childless)]]) [] home =
        .ok w' (.rows [[]]) ∧ els.Nodup ∧ (∀ v, v ∈ els ↔ IsAnswer (program [family, [], []] ancestorRules) childless "$1" v) ∧
      ∀ answers : List Value, answers.Nodup → (∀ v, v ∈ answers ↔ IsAnswer (program [family, [], []] ancestorRules) childless "$1" v) →
        generateOutput (solverAt (modelOf homeKB.others) 1) wg homeBuffer 1 w' = match formatList [.list answers] with
          | .ok v => .ok home v
          | .error e => .err w' e := by
  refine ⟨_, homeWrite_parsed uni H _, ?_⟩
  obtain ⟨w', h⟩ := childless_run
  obtain ⟨_, els, h1, h2, _⟩ := C93_list homeKB ancestor_heads home_core childless_ask home_list (home_undefined rfl rfl rfl rfl) (by decide +kernel)
    (by decide +kernel) (x := "$1") (by decide +kernel) (homeWrite_rules H formatList).2.2.2 (say_rules H formatList).2.2 h
  exact ⟨w', els, h, h1, h2, fun answers h3 h4 => C93_determined homeKB ancestor_heads home_core childless_ask home_list (home_undefined rfl rfl rfl rfl)
    (by decide +kernel) (by decide +kernel) (by decide +kernel) (homeWrite_rules H formatList).2.2.2 (say_rules H formatList).2.2 formatList_perm h h3 h4 0 0⟩

/-- The values and the answers to yes/no questions. -/
example (H : Constituent → List Constituent → Nat) {n : Nat} {w' : Home} {out : SolOut}
    (h : (solverAt (modelOf homeKB.others) n).solve (.list [.tuple [.str "intent_value", .str "$1", .list (formValues childless)]]) [] home = .ok w' out) :=
  C93_value homeKB ancestor_heads home_core childless_ask home_value (home_undefined rfl rfl rfl rfl) (by decide +kernel) (by decide +kernel)
    (x := "$1") (by decide +kernel) (homeWrite_rules H formatList).2.2.1 (say_rules H formatList).2.1 h
example (H : Constituent → List Constituent → Nat) {n : Nat} {w' : Home} {out : SolOut}
    (h : (solverAt (modelOf homeKB.others) n).solve (.list [.tuple [.str "intent_yn", .list (formValues childless)]]) [] home = .ok w' out) :=
  C93_yes_no homeKB ancestor_heads home_core childless_ask home_yn (by decide +kernel) (homeWrite_rules H formatList).1 ((say_rules H formatList).1 _ _)
    (homeWrite_rules H formatList).2.1 ((say_rules H formatList).1 _ _) h

/-! With a rule that negates. -/

def lastAr : String → Option Nat := fun p => if p = "parent" then some 2 else if p = "last" then some 1 else none

/-- `last(A) :- parent(B, A), not(parent(A, C))` -/
def lastRules : List FormRule :=
  [⟨"last", [.var "A"], [.atom "parent" [.var "B", .var "A"], .neg [.atom "parent" [.var "A", .var "C"]]], []⟩]

def lastState : InfState :=
  { relations := [("learn_rule", .learnRule), ("last", .handleRule)], rules := [("last", lastRules.map FormRule.toRule)] }

def lastHome : Home := (lastState, intentsState, SimpleStore.clear)

theorem last_pred {p : String} {k : Nat} (h : lastAr p = some k) : p = "parent" ∧ k = 2 ∨ p = "last" ∧ k = 1 := by
  simp only [lastAr] at h
  split at h
  · exact .inl ⟨by assumption, by simpa using h.symm⟩
  · split at h
    · exact .inr ⟨by assumption, by simpa using h.symm⟩
    · simp at h

theorem known_one {p : String} {a : String} {body : List Form} {given : List String} {κ : Nat → Prop} {x : String} :
    FormRule.known ⟨p, [.var a], body, given⟩ κ x ↔ x = a ∧ κ 0 := by
  simp only [FormRule.known]
  constructor
  · rintro ⟨i, h, k⟩
    match i with
    | 0 => simp at h; exact ⟨h.symm, k⟩
    | i + 1 => simp at h
  · rintro ⟨rfl, k⟩
    exact ⟨0, by simp, k⟩

theorem last_rules : ∀ r ∈ lastRules, FormRuleOk lastAr anyCall r := by
  intro r hr
  simp only [lastRules, List.mem_cons, List.not_mem_nil, or_false] at hr
  subst hr
  refine ⟨rfl, by simp [ArgsOk, Value.isVar], fun κ h => ?_, fun κ h => ?_, fun κ h => ?_, fun κ h x hx => ?_⟩
  all_goals
    try simp only [List.mem_cons, List.not_mem_nil, or_false, Value.var.injEq] at hx
    try simp [FormsOk, Form.Ok, lastAr, ArgsOk, Value.isVar, Known.more, formBinds, Form.binds, argVars, FormsCalled, Form.Called, anyCall,
      FormsSame, Form.inner, formVars, Form.vars, known_one]
  all_goals grind

theorem last_ok : FormProgramOk Home lastAr anyCall [family, [], []] lastRules := by
  refine ⟨⟨by decide, by decide, ?_⟩, ?_, ?_, last_rules⟩
  · intro p f h
    have hne : p ≠ "parent" ∧ p ≠ "last" := by
      constructor <;> rintro rfl <;> simp [coreTable, Dict.get] at h
    simp [lastAr, hne.1, hne.2]
  · intro p k h
    rcases last_pred h with ⟨rfl, _⟩ | ⟨rfl, _⟩
    · exact .inl ⟨family, by simp, by decide⟩
    · exact .inr ⟨_, List.mem_cons_self, rfl⟩
  · intro p k h db hdb rows hrows
    simp only [List.mem_cons, List.not_mem_nil, or_false] at hdb
    rcases hdb with rfl | rfl | rfl
    · rcases last_pred h with ⟨rfl, rfl⟩ | ⟨rfl, _⟩
      · exact family_ok.rowsOk "parent" 2 rfl family (by simp) rows hrows
      · cases hrows
    · simp [Dict.get] at hrows
    · simp [Dict.get] at hrows

def lastKB : FormKnowledge Home lastAr anyCall [family, [], []] lastRules where
  lens := Lens.fst _ _
  world := lastHome
  before := [tableModule Home family]
  after := [inferenceModule homeIntents, outputBuffer homeBuffer]
  dbs := [family]
  dbs' := [[], []]
  split := rfl
  facts := ⟨tableModule_fact _ _ _, trivial⟩
  facts' := by
    refine ⟨fun p k h => ?_, fun p k h => ?_, trivial⟩ <;> rcases last_pred h with ⟨rfl, _⟩ | ⟨rfl, _⟩ <;> rfl
  ok := last_ok
  inserted := by decide +kernel

theorem last_undefined {p : String} (h1 : (tableModule Home family).relations lastHome p = none) (h2 : (inferenceModule (Lens.fst InfState (InfState × SimpleStore))).relations lastHome p = none)
    (h3 : (inferenceModule homeIntents).relations lastHome p = none) (h4 : (outputBuffer homeBuffer).relations lastHome p = none) : NotDefined lastKB.others lastHome p := by
  intro m hm
  simp only [FormKnowledge.others, lastKB, List.mem_append, List.mem_cons, List.not_mem_nil, or_false] at hm
  rcases hm with rfl | rfl | rfl | rfl <;> assumption

theorem last_core : ∀ p ∈ coreNames, NotDefined lastKB.others lastKB.world p := by
  intro p hp
  simp only [coreNames, List.mem_cons, List.not_mem_nil, or_false] at hp
  rcases hp with rfl | rfl | rfl | rfl | rfl | rfl | rfl | rfl | rfl | rfl | rfl | rfl | rfl <;> exact last_undefined rfl rfl rfl rfl

theorem last_stores : StoresIn lastKB.others homeBuffer outputRelations lastHome where
  store := by
    intro s m hm
    simp only [FormKnowledge.others, lastKB, List.mem_append, List.mem_cons, List.not_mem_nil, or_false] at hm
    rcases hm with rfl | rfl | rfl | rfl <;> rfl
  rels := by
    intro s p cs h
    have hp : p ∈ outputRelations.map Prod.fst := List.mem_map.2 ⟨_, Dict.mem_of_get h, rfl⟩
    simp only [outputRelations, List.map_cons, List.map_nil, List.mem_cons, List.not_mem_nil, or_false] at hp
    rcases hp with rfl | rfl | rfl | rfl | rfl | rfl | rfl <;> (cases h; rfl)

def lastQuery : List Form := [.atom "last" [.var "$1"]]

theorem last_ask : Askable lastKB.others lastKB.world homeBuffer lastAr anyCall lastQuery where
  buffer := last_stores
  empty := rfl
  ok := by
    simp [lastQuery, FormsOk, Form.Ok, lastAr, ArgsOk, Value.isVar]
  called := formsCalled_any _ _
  names := by decide +kernel

theorem last_stratified : Stratified lastRules (fun p => if p = "parent" then 0 else 1) := by
  intro r hr
  simp only [lastRules, List.mem_cons, List.not_mem_nil, or_false] at hr
  subst hr
  simp [Form.preds, formPreds, Form.isAtom]

/-- There is an interpretation in which the rule holds; the replies list what is so in it. -/
example (H : Constituent → List Constituent → Nat) : ∃ I, Supported lastAr [family, [], []] lastRules I ∧
    (∀ {n : Nat} {w' : Home} {out : SolOut},
      (solverAt (modelOf lastKB.others) n).solve (.list [.tuple [.str "intent_list", .str "$1", .list (formValues lastQuery)]]) [] lastKB.world = .ok w' out →
      ∃ els : List Value, (∀ v, v ∈ els ↔ IsAnswer I.facts lastQuery "$1" v) ∧
        ∀ k m, generateOutput (solverAt (modelOf lastKB.others) (k + 1)) (homeWrite H formatList) homeBuffer (m + 1) w' = match formatList [.list els] with
          | .ok v => .ok lastKB.world v
          | .error e => .err w' e) ∧
    ∀ {n : Nat} {w' : Home} {out : SolOut},
      (solverAt (modelOf lastKB.others) n).solve (.list [.tuple [.str "intent_yn", .list (formValues lastQuery)]]) [] lastKB.world = .ok w' out →
      ∃ text, (Satisfiable I.facts lastQuery ∧ text = ['y', 'e', 's'] ∨ ¬ Satisfiable I.facts lastQuery ∧ text = ['n', 'o']) ∧
        ∀ k m, generateOutput (solverAt (modelOf lastKB.others) (k + 1)) (homeWrite H formatList) homeBuffer (m + 1) w' =
          .ok lastKB.world (.str (String.ofList text)) := by
  obtain ⟨I, hI⟩ := C78_stratified (ar := lastAr) (tables := [family, [], []]) last_stratified
  refine ⟨I, hI, fun h => ?_, fun h => ?_⟩
  · obtain ⟨_, els, _, h2, h3⟩ := C93_list_forms lastKB last_core hI last_ask (g := homeIntents.get) ⟨rfl, rfl⟩ (last_undefined rfl rfl rfl rfl) (by decide +kernel)
      (by decide +kernel) (x := "$1") (by decide +kernel) (homeWrite_rules H formatList).2.2.2 (say_rules H formatList).2.2 h
    exact ⟨els, h2, h3⟩
  · exact (C93_yes_no_forms lastKB last_core hI last_ask (g := homeIntents.get) ⟨rfl, rfl⟩ (by decide +kernel) (homeWrite_rules H formatList).1
      ((say_rules H formatList).1 _ _) (homeWrite_rules H formatList).2.1 ((say_rules H formatList).1 _ _) h).2

/-! Without recursion the intent returns. -/

def nearHome : Home :=
  ({ relations := [("learn_rule", .learnRule), ("ancestor", .handleRule)], rules := [("ancestor", parentRules.map HornRule.toRule)] }, intentsState, SimpleStore.clear)

def nearHomeKB : KnowledgeBase Home familyAr [family, [], []] parentRules where
  lens := Lens.fst _ _
  world := nearHome
  before := [tableModule Home family]
  after := [inferenceModule homeIntents, outputBuffer homeBuffer]
  dbs := [family]
  dbs' := [[], []]
  split := rfl
  facts := ⟨tableModule_fact _ _ _, trivial⟩
  facts' := by
    refine ⟨fun p k h => ?_, fun p k h => ?_, trivial⟩ <;> rcases family_pred h with rfl | rfl <;> rfl
  ok := by
    refine ⟨home_ok.notReserved, fun p k h => ?_, home_ok.rowsOk, parent_ok.rulesOk⟩
    rcases parent_ok.defined p k h with ⟨db, hdb, h⟩ | h
    · simp only [List.mem_singleton] at hdb
      subst hdb
      exact .inl ⟨family, by simp, h⟩
    · exact .inr h
  inserted := by decide +kernel

theorem near_undefined {p : String} (h1 : (tableModule Home family).relations nearHome p = none) (h2 : (inferenceModule (Lens.fst InfState (InfState × SimpleStore))).relations nearHome p = none)
    (h3 : (inferenceModule homeIntents).relations nearHome p = none) (h4 : (outputBuffer homeBuffer).relations nearHome p = none) : NotDefined nearHomeKB.others nearHome p := by
  intro m hm
  simp only [KnowledgeBase.others, nearHomeKB, List.mem_append, List.mem_cons, List.not_mem_nil, or_false] at hm
  rcases hm with rfl | rfl | rfl | rfl <;> assumption

theorem near_ask : Askable nearHomeKB.others nearHomeKB.world homeBuffer familyAr anyCall childless where
  buffer :=
    { store := by
        intro s m hm
        simp only [KnowledgeBase.others, nearHomeKB, List.mem_append, List.mem_cons, List.not_mem_nil, or_false] at hm
        rcases hm with rfl | rfl | rfl | rfl <;> rfl
      rels := by
        intro s p cs h
        have hp : p ∈ outputRelations.map Prod.fst := List.mem_map.2 ⟨_, Dict.mem_of_get h, rfl⟩
        simp only [outputRelations, List.map_cons, List.map_nil, List.mem_cons, List.not_mem_nil, or_false] at hp
        rcases hp with rfl | rfl | rfl | rfl | rfl | rfl | rfl <;> (cases h; rfl) }
  empty := rfl
  ok := childless_ask.ok
  called := formsCalled_any _ _
  names := childless_ask.names

example := C93_returns nearHomeKB (fun r hr => ancestor_heads r (by simp [parentRules] at hr; simp [ancestorRules, hr]))
  (by
    intro p hp
    simp only [coreNames, List.mem_cons, List.not_mem_nil, or_false] at hp
    rcases hp with rfl | rfl | rfl | rfl | rfl | rfl | rfl | rfl | rfl | rfl | rfl | rfl | rfl <;> exact near_undefined rfl rfl rfl rfl)
  (rank := fun p => if p = "ancestor" then 1 else 0) (.of_rank (by simp [parentRules])) near_ask (g := homeIntents.get) ⟨rfl, rfl⟩
  (near_undefined rfl rfl rfl rfl) (by decide +kernel) (by decide +kernel) (x := "$1") (n := 3) (by decide)

end Ex

end Verif

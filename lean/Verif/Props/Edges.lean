import Verif.Props.Calm
import Verif.Props.Counted
import Verif.Props.LoggedAnswers
import Verif.Props.Logging
import Verif.Props.RuleText
import Verif.Props.Small

/-!
# Edges: missing arguments, values that can not be hashed, reified variables, white space, the text of the log
-/

namespace Verif

/-! ## C60: missing arguments -/

/-- The predicates of `richard/module/CoreModule.py:14-35` that read their arguments by position, with the number of arguments they read (specification). -/
def argumentsRead : List (String × Nat) :=
  [("equals", 2), ("greater_than", 2), ("less_than", 2), ("multiply", 2), ("count", 2), ("sum", 3), ("avg", 3), ("arg_min", 3), ("arg_max", 3),
   ("percentage", 3), ("not", 1), ("let", 2), ("all", 3), ("none", 1), ("scoped", 1), ("store", 1), ("destructure", 1), ("find_all", 2), ("find_one", 2)]

/-- **C60** (missing arguments) A core predicate that is called with fewer arguments than it reads raises an `IndexError`, and changes nothing. -/
theorem C60_missing_argument {W : Type} (mods : List (Module W)) (n : Nat) (w : W) (b : Binding) {p : String} {k : Nat} (hk : (p, k) ∈ argumentsRead)
    (hp : NotDefined mods w p) (args : List Value) (hlen : args.length < k) :
    (solverAt (modelOf mods) (n + 1)).solve (query1 p args) b w = .err w .indexError := by
  simp only [argumentsRead, List.mem_cons, List.not_mem_nil, or_false, Prod.mk.injEq] at hk
  rcases args with _ | ⟨a, _ | ⟨c, _ | ⟨d, args⟩⟩⟩ <;> simp only [List.length_nil, List.length_cons] at hlen <;>
    rcases hk with ⟨rfl, rfl⟩ | ⟨rfl, rfl⟩ | ⟨rfl, rfl⟩ | ⟨rfl, rfl⟩ | ⟨rfl, rfl⟩ | ⟨rfl, rfl⟩ | ⟨rfl, rfl⟩ | ⟨rfl, rfl⟩ | ⟨rfl, rfl⟩ | ⟨rfl, rfl⟩ |
      ⟨rfl, rfl⟩ | ⟨rfl, rfl⟩ | ⟨rfl, rfl⟩ | ⟨rfl, rfl⟩ | ⟨rfl, rfl⟩ | ⟨rfl, rfl⟩ | ⟨rfl, rfl⟩ | ⟨rfl, rfl⟩ | ⟨rfl, rfl⟩ <;>
    first
    | omega
    | (rw [solve_core hp rfl (by decide)]; rfl)

/-- `[('let', E1)]` -/
example : (solverAt (modelOf ([] : List (Module Unit))) 1).solve (query1 "let" [.var "E1"]) [] () = .err () .indexError :=
  C60_missing_argument [] 0 () [] (k := 2) (by decide) (fun _ h => by cases h) _ (by decide)

/-! ## C87: values that can not be put in a set -/

/-- The value is a list or a template, or a tuple with such a value in it (specification). -/
inductive HasList : Value → Prop
  | list (xs) : HasList (.list xs)
  | tmpl (args body) : HasList (.tmpl args body)
  | tuple {xs x} : x ∈ xs → HasList x → HasList (.tuple xs)

mutual
theorem hashable_iff : ∀ v : Value, hashable v = false ↔ HasList v
  | .none => ⟨nofun, nofun⟩
  | .num _ => ⟨nofun, nofun⟩
  | .str _ => ⟨nofun, nofun⟩
  | .var _ => ⟨nofun, nofun⟩
  | .rvar _ => ⟨nofun, nofun⟩
  | .list xs => ⟨fun _ => .list xs, fun _ => rfl⟩
  | .tmpl a c => ⟨fun _ => .tmpl a c, fun _ => rfl⟩
  | .tuple xs => by
    rw [hashable, hashableAll_iff xs]
    exact ⟨fun ⟨x, h1, h2⟩ => .tuple h1 h2, fun h => by cases h with | tuple h1 h2 => exact ⟨_, h1, h2⟩⟩
theorem hashableAll_iff : ∀ xs : List Value, hashableAll xs = false ↔ ∃ x ∈ xs, HasList x
  | [] => by simp [hashableAll]
  | x :: xs => by
    rw [hashableAll, Bool.and_eq_false_iff, hashable_iff x, hashableAll_iff xs]
    simp
end

/-- **C87** (which values raise) `all` over a range that gives a value with a list in it, at the top or in a tuple, raises a `TypeError`. -/
theorem C87_all_raises_inside {W : Type} {ar : String → Option Nat} {tables : List (Dict (List (List Value)))} {rs : List HornRule}
    (K : KnowledgeBase W ar tables rs) (hcore : ∀ p ∈ coreNames, NotDefined K.others K.world p) (n : Nat) (q : List Form) {v : Value} (hv : HasList v) :
    K.askForms (n + 2) [.all "X" [.assign "X" v] q] [] = .err K.world .typeError := by
  have h : (solverAt (modelOf K.others) (n + 1)).solve (.list (formValues [.assign "X" v])) [] K.world = .ok K.world (.rows [[("X", v)]]) :=
    C60_let K.others n K.world [] _ (hcore _ (by decide)) "X" rfl v (by cases hv <;> rfl)
  show (solverAt (modelOf K.others) (n + 2)).solve (query1 "all" [.var "X", .list (formValues [.assign "X" v]), .list (formValues q)]) [] K.world = _
  rw [solve_core (hcore _ (by decide)) rfl (by decide)]
  simp only [coreAll]
  core_eval
  simp only [argValue, Option.getD_some, h, iterSol, M.pure_run]
  have hl : lookupAll (.var "X") [[("X", v)]] = .ok [v] := rfl
  have ho : orderedSet [v] [] = .error .typeError := by
    simp only [orderedSet, (hashable_iff v).2 hv]
    rfl
  have h1 : (M.lift (Except.ok [v]) : M W (List Value)) K.world = .ok K.world [v] := rfl
  simp only [hl, h1, ho]
  rfl

/-- A pair of a name and a list. -/
example (n : Nat) (q : List Form) : Ex.familyKB.askForms (n + 2) [.all "X" [.assign "X" (.tuple [.str "ann", .list [.num 1]])] q] [] = .err Ex.familyKB.world .typeError :=
  C87_all_raises_inside Ex.familyKB Ex.family_core n q (.tuple (x := .list [.num 1]) (by simp) (.list _))

/-! ## C15, C17: reified variables -/

/-- **C15**, **C17** (reified variables) `sum`, `avg`, `arg_min`, `arg_max` and `all` do the same with reified variables as with variables of the same name. -/
theorem C15_reified {W : Type} (values : List Value) (ctx : Ctx W) (x y : String) (a c : Value) :
    coreSum values { ctx with arguments := [a, .rvar x, c] } = coreSum values { ctx with arguments := [a, .var x, c] } ∧
    coreAvg values { ctx with arguments := [a, .rvar x, c] } = coreAvg values { ctx with arguments := [a, .var x, c] } ∧
    coreArgMin values { ctx with arguments := [.rvar y, .rvar x, c] } = coreArgMin values { ctx with arguments := [.var y, .var x, c] } ∧
    coreArgMax values { ctx with arguments := [.rvar y, .rvar x, c] } = coreArgMax values { ctx with arguments := [.var y, .var x, c] } ∧
    coreAll values { ctx with arguments := [.rvar x, a, c] } = coreAll values { ctx with arguments := [.var x, a, c] } := by
  have hl : ∀ (z : String) (b : Binding), lookupVar b (.rvar z) = lookupVar b (.var z) := fun _ _ => rfl
  have hs : ∀ (z : String) (bs : List Binding) (s : Rat), sumLoop (.rvar z) bs s = sumLoop (.var z) bs s := by
    intro z bs
    induction bs with
    | nil => intro s; rfl
    | cons b bs ih => intro s; simp only [sumLoop, hl, ih]
  have hi : ∀ (z : String) (o : SolOut), (iterSol (.rvar z) o : M W (List Binding)) = iterSol (.var z) o := by
    intro z o
    cases o with
    | rows bs => rfl
    | iter s k => cases k <;> rfl
  have ha : ∀ (lt : Value → Value → Except Err Bool) (bs : List Binding) (u v : Value), argLoop lt (.rvar y) (.rvar x) bs u v = argLoop lt (.var y) (.var x) bs u v := by
    intro lt bs
    induction bs with
    | nil => intro u v; rfl
    | cons b bs ih => intro u v; simp only [argLoop, argBetter, hl, ih]
  have hall : ∀ (z : String) (bs : List Binding), lookupAll (.rvar z) bs = lookupAll (.var z) bs := by
    intro z bs
    induction bs with
    | nil => rfl
    | cons b bs ih => simp only [lookupAll, hl, ih]
  have hloop : ∀ (A B : List Value) (z : String) (body : Value) (es acc : List Value),
      allLoop { ctx with arguments := A } z body es acc = allLoop { ctx with arguments := B } z body es acc := by
    intro A B z body es
    induction es with
    | nil => intro acc; rfl
    | cons e es ih => intro acc; simp only [allLoop, ih]
  have hn : nameOf (.rvar x) = nameOf (.var x) := rfl
  have n0 : ∀ u v w : Value, (nth [u, v, w] 0 : M W Value) = pure u := fun _ _ _ => rfl
  have n1 : ∀ u v w : Value, (nth [u, v, w] 1 : M W Value) = pure v := fun _ _ _ => rfl
  refine ⟨?_, ?_, ?_, ?_, ?_⟩
  · funext w; simp only [coreSum, n1, M.bind_run, M.pure_run, hs, hi]
  · funext w; simp only [coreAvg, n1, M.bind_run, M.pure_run, hs, hi]
  · funext w; simp only [coreArgMin, coreArg, n0, n1, M.bind_run, M.pure_run, hi, ha]
  · funext w; simp only [coreArgMax, coreArg, n0, n1, M.bind_run, M.pure_run, hi, ha]
  · funext w; simp only [coreAll, n0, M.bind_run, M.pure_run, hi, hall, hn, hloop [.rvar x, a, c] [.var x, a, c]]

/-! ## C35: which characters are white space -/

/-- The code points of the characters that Python's `str.isspace` accepts (specification, from the Unicode database). -/
def spaceCodes : List Nat :=
  [9, 10, 11, 12, 13, 28, 29, 30, 31, 32, 133, 160, 5760, 8192, 8193, 8194, 8195, 8196, 8197, 8198, 8199, 8200, 8201, 8202, 8232, 8233, 8239, 8287, 12288]

/-- **C35** (white space) These characters are white space and no others. -/
theorem C35_white_space (c : Char) : isSpace c = true ↔ c.toNat ∈ spaceCodes := by
  simp only [isSpace, spaceCodes, List.mem_cons, List.not_mem_nil, or_false, Bool.or_eq_true, Bool.and_eq_true, decide_eq_true_eq, beq_iff_eq]
  omega

/-! ## C80: the text of the log -/

/-- **C80** (text) The text of an empty log is empty; an entry that is added comes after all that was there, with a new line after it. -/
theorem C80_text : Logger.new.text = [] ∧ ∀ (lg : Logger) (es : List Str) (e : Str), (lg.append (es ++ [e])).text = (lg.append es).text ++ e ++ ['\n'] := by
  refine ⟨rfl, fun lg es e => ?_⟩
  simp [Logger.text, Logger.append]

example : ((Logger.new.append [['a']]).append [['b']]).text = ['a', '\n', 'b', '\n'] := by decide

/-- **C80** (before the first test) A logger that has only been set up is active exactly if the last of the calls about tests asked for all of them. -/
theorem C80_fresh (calls : List LogSetting) : (calls.foldl LogSetting.apply Logger.new).isActive = true ↔ lastTests calls = some .all := by
  have h : ∀ (calls : List LogSetting) (lg : Logger), lg.isLastTest = false → (calls.foldl LogSetting.apply lg).isLastTest = false := by
    intro calls
    induction calls with
    | nil => exact fun _ h => h
    | cons c calls ih => exact fun lg h => ih _ (by cases c <;> exact h)
  have h1 := (C80_settings calls).1
  have h2 := h calls Logger.new rfl
  simp only [Logger.isActive, h2, Bool.and_false, Bool.or_false, decide_eq_true_eq, h1]
  cases lastTests calls <;> simp

example : ([LogSetting.tests .all, .products [1]].foldl LogSetting.apply Logger.new).isActive = true ∧
    ([LogSetting.tests .all, .tests .last].foldl LogSetting.apply Logger.new).isActive = false := by decide

/-! ## C16, C89: what is asked for is not a name -/

/-- Neither a text nor a list (specification). -/
def NoName : Value → Prop
  | .str _ => False
  | .list _ => False
  | _ => True

section NoNames
variable {W : Type} {mods : List (Module W)} {n : Nat} {w w' : W} {b : Binding} {a0 a body v : Value} {bs : List Binding} {r p : String}

private theorem loop_noName (hv : NoName v) : ∀ (bs : List Binding) (acc : List Value), hashable v = true → findAllLoop v bs acc = .ok acc
  | [], _, _ => rfl
  | b :: bs, acc, h => by
    have ih := loop_noName hv bs acc h
    cases v <;> first | exact hv.elim | simp [findAllLoop, lookupKey, h, ih]

private theorem loop_unhashable (hv : NoName v) (h : hashable v = false) (b : Binding) (bs : List Binding) (acc : List Value) :
    findAllLoop v (b :: bs) acc = .error .typeError := by
  cases v <;> first | exact hv.elim | simp [findAllLoop, lookupKey, h]

/-- **C16** (other values) A value that is neither a name nor a list of names is the value of no variable: `find_all` binds the empty list. -/
theorem C16_no_name (hp : NotDefined mods w "find_all") (h0 : argValue b a0 = some v) (hv : NoName v) (hh : hashable v = true)
    (ha : argValue b a = some body) (hr : b.get r = none) (hb : (solverAt (modelOf mods) n).solve body b w = .ok w' (.rows bs)) :
    (solverAt (modelOf mods) (n + 1)).solve (query1 "find_all" [a0, a, .var r]) b w = .ok w' (.rows [b.set r (.list [])]) := by
  rw [solve_core hp rfl (by decide)]
  simp only [coreFindAll, findAllValues]
  core_eval
  rw [h0, ha]
  simp only [Option.getD_some, hb, loop_noName hv bs [] hh, M.lift, M.pure]
  simp only [dedupRows_singleton]
  rw [resultsOf_one (by rfl) w' (extendRow_find b a0 a body r h0 ha hr _)]
  rfl

/-- **C16** (other values) A value that can not be hashed, asked for in at least one answer, is a `TypeError`. -/
theorem C16_unhashable (hpp : p ∈ ["find_all", "find_one"]) (hp : NotDefined mods w p) (h0 : argValue b a0 = some v) (hv : NoName v)
    (hh : hashable v = false) (ha : argValue b a = some body) {b0 : Binding}
    (hb : (solverAt (modelOf mods) n).solve body b w = .ok w' (.rows (b0 :: bs))) :
    (solverAt (modelOf mods) (n + 1)).solve (query1 p [a0, a, .var r]) b w = .err w' .typeError := by
  simp only [List.mem_cons, List.not_mem_nil, or_false] at hpp
  rcases hpp with rfl | rfl
  · rw [solve_core hp rfl (by decide)]
    simp only [coreFindAll, findAllValues]
    core_eval
    rw [h0, ha]
    simp [Option.getD_some, hb, loop_unhashable hv hh, M.lift, M.throw]
  · rw [solve_core hp rfl (by decide)]
    simp only [coreFindOne, findAllValues]
    core_eval
    rw [h0, ha]
    simp [Option.getD_some, hb, loop_unhashable hv hh, M.lift, M.throw]

/-- **C89** (other values) Over counted answers, if there are any, all values but names and lists are a `TypeError`, also those that can be hashed. -/
theorem C89_no_name (hpp : p ∈ ["find_all", "find_one"]) (hp : NotDefined mods w p) (h0 : argValue b a0 = some v) (hv : NoName v)
    (ha : argValue b a = some body) {single : List Value} {k : Nat}
    (hb : (solverAt (modelOf mods) n).solve body b w = .ok w' (.iter single (k + 1))) :
    (solverAt (modelOf mods) (n + 1)).solve (query1 p [a0, a, .var r]) b w = .err w' .typeError := by
  have hf : findAllTexts v (resultItems single (k + 1)) [] = .error .typeError := by
    simp only [resultItems, List.range_succ_eq_map, List.map_cons]
    cases v <;> first | exact hv.elim | simp [findAllTexts, missingIn]
  simp only [List.mem_cons, List.not_mem_nil, or_false] at hpp
  rcases hpp with rfl | rfl
  · rw [solve_core hp rfl (by decide)]
    simp only [coreFindAll, findAllValues]
    core_eval
    rw [h0, ha]
    simp [Option.getD_some, hb, hf, M.lift, M.throw]
  · rw [solve_core hp rfl (by decide)]
    simp only [coreFindOne, findAllValues]
    core_eval
    rw [h0, ha]
    simp [Option.getD_some, hb, hf, M.lift, M.throw]

end NoNames

/-- The number `5` and the tuple `([],)` instead of a name. -/
example : (solverAt (modelOf [tableModule Unit Ex.db]) 2).solve
      (query1 "find_all" [.num 5, .list [.tuple [.str "parent", .var "X", .var "Y"]], .var "R"]) [] () = .ok () (.rows [[("R", .list [])]]) ∧
    (solverAt (modelOf [tableModule Unit Ex.db]) 2).solve
      (query1 "find_one" [.tuple [.list []], .list [.tuple [.str "parent", .var "X", .var "Y"]], .var "R"]) [] () = .err () .typeError := by
  decide +kernel

/-! ## C83: atoms that are texts -/

/-- **C83** (texts) An atom of the body that is a text is printed as it is, without quotes, so it is read as something else. -/
theorem C83_text_atom (head : List Value) (s t : String) :
    Rule.text ⟨head, .list [.str s]⟩ = .ok (reprV (.tuple head) ++ [' ', ':', '-', ' '] ++ s.toList ++ ['.']) ∧
    Rule.text ⟨head, .list [.str s, .str t]⟩ = .ok (reprV (.tuple head) ++ [' ', ':', '-', ' '] ++ s.toList ++ [',', ' '] ++ t.toList ++ ['.']) := by
  simp [Rule.text, strValue, joinText]

end Verif

import Verif.Props.Replies
import Verif.Props.Lessons
import Verif.RuleBaseOthers

/-!
# C105: sentences that teach a rule
-/

namespace Verif

variable {W : Type}

/-! ## Specification -/

/-- `sentence_learn(Head, Body) :- learn_rule(Head, Body), store(output_type('ok')).` (`tests/integration/cooper/inferences.pl:5`) -/
def learnIntent : Rule :=
  ⟨[.str "sentence_learn", .var "Head", .var "Body"],
   .list [.tuple [.str "learn_rule", .var "Head", .var "Body"], .tuple [.str "store", .list [.tuple [.str "output_type", .str "ok"]]]]⟩

/-- A sentence that teaches a rule: the variables with a given value, the head and the body (`tests/integration/cooper/read_grammar1.py:28-80`). -/
structure Teaching where
  given : List (String × Value)
  rule : HornRule

/-- Its meaning: `let(T1, 'true'), let(T2, 'false'), sentence_learn(head, body)`. -/
def Teaching.meaning (t : Teaching) : Value :=
  .list (t.given.map (fun g => .tuple [.str "let", .var g.1, g.2]) ++
    [.tuple [.str "sentence_learn", .tuple (.str t.rule.pred :: t.rule.args), toQuery t.rule.body]])

/-- The variable occurs in the rule (specification). -/
def HornRule.Has (h : HornRule) (x : String) : Prop := .var x ∈ h.args ∨ ∃ a ∈ h.body, .var x ∈ a.2

/-- The predicate is one of those that are used to learn and to reply. -/
def Busy (p : String) : Prop := p = "let" ∨ p = "learn_rule" ∨ p = "sentence_learn" ∨ p = "store" ∨ outputRelations.has p = true

/-- The sentence teaches something sensible: a value is given once for each variable, and is no variable; the rule has no variables named `Head` or
`Body`, and is not about learning and replying themselves (specification). -/
structure Teaching.Ok (t : Teaching) : Prop where
  once : (t.given.map Prod.fst).Nodup
  values : ∀ g ∈ t.given, g.2.isVar = false
  names : ∀ g ∈ t.given, g.1 ≠ "Head" ∧ g.1 ≠ "Body"
  word : WordName t.rule.pred
  flat : t.rule.Flat
  free : ¬ t.rule.Has "Head" ∧ ¬ t.rule.Has "Body"
  idle : ¬ Busy t.rule.pred

/-- A system that can be taught: the inference module has the intent above, and the output buffer is another module. The other modules have nothing to do
with learning and replying. -/
structure Teachable (li : Lens W InfState) (l : Lens W SimpleStore) (before after : List (Module W)) (w : W) : Prop where
  apart : ∀ u s, l.put u (li.put s w) = li.put s (l.put u w)
  others : ∀ u s p, p = "let" ∨ p = "learn_rule" ∨ p = "sentence_learn" ∨ p = "store" →
    ∀ m ∈ before ++ after, m.relations (l.put u (li.put s w)) p = none
  buffer : ∀ u s p cs, outputRelations.get p = some cs → findRelations (before ++ after) (l.put u (li.put s w)) p = [memoryRelation l p cs]

/-- The inference module can learn with the intent, and has no rules for `let`, `store` and the output. -/
structure CanLearn (s : InfState) : Prop where
  learn : s.relations.get "learn_rule" = some .learnRule
  intent : s.relations.get "sentence_learn" = some .handleRule
  rule : s.rules.get "sentence_learn" = some [learnIntent]
  free : ∀ p, p = "let" ∨ p = "store" ∨ outputRelations.has p = true → s.relations.get p = none

/-- A turn of a session: a sentence that teaches a rule, or a question. -/
inductive ClassTurn where
  | teach (t : Teaching)
  | ask (q : Query) (b : Binding)

/-- What a turn gives: a reply, or answers. -/
inductive TurnOut where
  | reply (v : Value)
  | answers (o : SolOut)
  deriving DecidableEq

/-- The turns one after the other. For a sentence that teaches, the meaning is solved and a reply is generated. -/
def runTurns (solver : SolverApi W) (wg : Grammar WriteSem) (l : Lens W SimpleStore) (m : Nat) : List ClassTurn → M W (List TurnOut)
  | [] => pure []
  | .teach t :: ts => do
    let _ ← solver.solve t.meaning []
    let reply ← generateOutput solver wg l m
    let outs ← runTurns solver wg l m ts
    pure (.reply reply :: outs)
  | .ask q b :: ts => do
    let o ← solver.solve (toQuery q) b
    let outs ← runTurns solver wg l m ts
    pure (.answers o :: outs)

/-- The rules that are taught, with the given values filled in (specification). -/
def taughtIn : List ClassTurn → List HornRule
  | [] => []
  | .teach t :: ts => t.rule.filled t.given :: taughtIn ts
  | .ask _ _ :: ts => taughtIn ts

/-- What the turns give is right (specification): a sentence that teaches gets the text as reply, and a question exactly the answers that follow from the
tables, the rules of the start, and the rules that were taught before; each once. -/
def RightTurns (tables : List (Dict (List (List Value)))) (text : String) : List HornRule → List ClassTurn → List TurnOut → Prop
  | _, [], [] => True
  | rs, .teach t :: ts, .reply v :: os => v = .str text ∧ RightTurns tables text (rs ++ [t.rule.filled t.given]) ts os
  | rs, .ask q b :: ts, .answers (.rows bs) :: os =>
    SoundB (program tables rs) q b bs ∧ NoDup bs ∧ (HeadsBound rs → CompleteB (program tables rs) q b bs) ∧ RightTurns tables text rs ts os
  | _, _, _ => False

/-- The turns make sense: questions are about predicates that are known when they are asked (specification). -/
def SensibleTurns (li : Lens W InfState) (before after : List (Module W)) (dbs dbs' : List (Dict (List (List Value)))) (w : W) :
    List HornRule → List ClassTurn → Prop
  | _, [] => True
  | rs, .teach t :: ts => t.Ok ∧ SensibleTurns li before after dbs dbs' w (rs ++ [t.rule.filled t.given]) ts
  | rs, .ask q b :: ts => (∃ ar, ProgramOk W ar (dbs ++ dbs') rs ∧ ar "sentence_learn" = none ∧ QueryOk ar q ∧ PlainB b ∧
      ∀ s, FactModules ar (li.put s w) before dbs ∧ FactModules ar (li.put s w) after dbs') ∧ SensibleTurns li before after dbs dbs' w rs ts

/-! ## A rule called with values, with other variables bound -/

theorem bindHead_nonvar (b : Binding) : ∀ (ras args : List Value) (rb : Binding), (∀ a ∈ args, a.isVar = false) →
    bindHead b ras args rb = bindHead [] ras args rb
  | [], _, _, _ => by simp [bindHead]
  | _ :: _, [], _, _ => by simp [bindHead]
  | ra :: ras, a :: as, rb, h => by
    have ha := h a (by simp)
    have ih := fun rb' => bindHead_nonvar b ras as rb' (fun y hy => h y (List.mem_cons_of_mem _ hy))
    cases a <;> simp [Value.isVar] at ha <;> cases ra <;> simp only [bindHead, ih]

theorem intent_at {ms : List (Module W)} {w : W} {p : String} {rule : Rule} {xs : List String} {args : List Value} {n : Nat} {b : Binding}
    {w' : W} {q : List Value → Ctx W → M W QOut} (hi : findRelations (modelOf ms) w p = [{ predicate := p, query := q }])
    (hrun : ∀ db args b api rows, solveRule rule args api b w = .ok w' rows → q db ⟨p, [], args, b, api⟩ w = .ok w' (.rows rows)) (hhead : rule.head = .str p :: xs.map .var) (hnd : xs.Nodup) (hlen : args.length = xs.length)
    (hargs : ∀ a ∈ args, a.isVar = false) (hp : p ≠ "$disjunction") (hbody : emptyBody rule.body = false) (hb : b.without rule.variables = b)
    (hx : ∀ x ∈ xs, b.get x = none)
    {c : Binding} (h : (solverAt (modelOf ms) n).solve rule.body (b ++ xs.zip args) w = .ok w' (.rows [c])) :
    (solverAt (modelOf ms) (n + 1)).solve (.list [.tuple (.str p :: args)]) b w = .ok w' (.rows [b]) := by
  have hrb : bindHead b rule.head.tail args (b.without rule.variables) = some (b ++ xs.zip args) := by
    rw [hhead, hb, bindHead_nonvar b _ _ _ hargs]
    exact bindHead_values xs args b hnd hx hlen hargs
  have hs : solveRule rule args (solverAt (modelOf ms) n) b w = .ok w' [args] := by
    simp only [solveRule, hrb, hbody, Bool.false_eq_true, if_false]
    rw [M.bind_ok h]
    simp only [ruleRows, headRows_values rule.head.tail args (by rw [hhead]; simpa using hlen) hargs]
    rfl
  have hf : findRelationValues (solverAt (modelOf ms) n) (modelOf ms) p args b w = .ok w' (.rows [args]) := by
    rw [findRelationValues, M.bind_ok (M.gets_run _ w), hi]
    simp only [queryRelations]
    rw [M.bind_ok (hrun _ _ _ _ _ hs)]
    simp [M.pure_run, dedupRows]
  show solveSingle.go (solverAt (modelOf ms) n) (modelOf ms) b p args w = _
  simp only [solveSingle.go, hp, if_false]
  rw [M.bind_ok hf, resultsOf_one rfl w' (extendRow_own b args hargs b false)]
  rfl

/-- `learn_rule(Head, Body)` with values for `Head` and `Body`. -/
theorem learn_atom (l : Lens W InfState) {mods : List (Module W)} {w : W}
    (hrel : findRelations mods w "learn_rule" = [{ predicate := "learn_rule", query := learnRule l }])
    {head body : List Value} {b : Binding} (h1 : b.get "Head" = some (.tuple head)) (h2 : b.get "Body" = some (.list body)) (n : Nat) {s' : InfState}
    (hs' : insertRule { head := bindVarsList b head, body := .list (bindVarsList b body) } (l.get w) = .ok s') :
    (solverAt mods (n + 1)).solve (.list [.tuple [.str "learn_rule", .var "Head", .var "Body"]]) b w = .ok (l.put s' w) (.rows [b]) := by
  show solveSingle.go (solverAt mods n) mods b "learn_rule" _ w = _
  have hq : learnRule l [.tuple head, .list body] ⟨"learn_rule", [], [.var "Head", .var "Body"], b, solverAt mods n⟩ w
      = .ok (l.put s' w) (.rows [[.none, .none]]) := by
    simp only [learnRule]
    rw [M.bind_run]
    simp only [M.gets_run, bindVars]
    rw [M.bind_run, hs']
    rfl
  have hdb : dbValues [.var "Head", .var "Body"] b = [.tuple head, .list body] := by simp [dbValues, h1, h2]
  simp only [solveSingle.go, findRelationValues]
  rw [if_neg (by decide), M.bind_run, M.bind_run]
  simp only [M.gets_run, hrel, queryRelations]
  rw [hdb, M.bind_ok hq]
  have k1 : Dict.has b "Head" = true := (Dict.has_iff _ _).2 ⟨_, h1⟩
  have k2 : Dict.has b "Body" = true := (Dict.has_iff _ _).2 ⟨_, h2⟩
  simp only [M.pure_run, List.nil_append, dedupRows, resultsOf]
  simp [createResults, extendRow, k1, k2, Except.map, M.lift, M.pure]

/-- Atoms of which the first has one answer. -/
theorem solve_one_then {ms : List (Module W)} {w : W} {n : Nat} {a1 a2 : Value} {as : List Value} {b b1 b2 : Binding} {w1 w2 : W}
    (h1 : (solverAt (modelOf ms) (n + 1)).solve (.list [a1]) b w = .ok w1 (.rows [b1]))
    (h2 : (solverAt (modelOf ms) (n + 1)).solve (.list (a2 :: as)) b1 w1 = .ok w2 (.rows [b2])) :
    (solverAt (modelOf ms) (n + 1)).solve (.list (a1 :: a2 :: as)) b w = .ok w2 (.rows [b2]) := by
  show solveAtoms (solverAt (modelOf ms) n) (modelOf ms) (a1 :: a2 :: as) b w = _
  rw [solveAtoms, M.bind_ok (show solveSingle (solverAt (modelOf ms) n) (modelOf ms) a1 b w = .ok w1 (.rows [b1]) from h1)]
  dsimp only
  rw [collect, M.bind_ok (show solveAtoms (solverAt (modelOf ms) n) (modelOf ms) (a2 :: as) b1 w1 = .ok w2 (.rows [b2]) from h2)]
  simp [collect, addNew, M.pure_run]

/-- Values are given to variables, one after the other. -/
theorem solve_lets {ms : List (Module W)} {w w2 : W} {n : Nat} {a : Value} (hlet : NotDefined ms w "let") :
    ∀ (gs : List (String × Value)) (b : Binding), ((b ++ gs).map Prod.fst).Nodup → (∀ g ∈ gs, g.2.isVar = false) →
    (solverAt (modelOf ms) (n + 1)).solve (.list [a]) (b ++ gs) w = .ok w2 (.rows [b ++ gs]) →
    (solverAt (modelOf ms) (n + 1)).solve (.list (gs.map (fun g => .tuple [.str "let", .var g.1, g.2]) ++ [a])) b w = .ok w2 (.rows [b ++ gs])
  | [], b, _, _, h => by simpa using h
  | g :: gs, b, hnd, hv, h => by
    have hnew : b.get g.1 = none := by
      cases e : Dict.get b g.1 with
      | none => rfl
      | some v =>
        have hm : g.1 ∈ b.map Prod.fst := List.mem_map.2 ⟨_, Dict.mem_of_get e, rfl⟩
        rw [List.map_append, List.nodup_append] at hnd
        exact absurd rfl (hnd.2.2 g.1 hm g.1 (by simp))
    have hg := hv g (by simp)
    have h1 := C60_let ms n w b g.2 hlet g.1 hnew g.2 (by
      obtain ⟨x, v⟩ := g
      cases v <;> simp [Value.isVar] at hg <;> rfl)
    rw [dict_set_new hnew] at h1
    have ih := solve_lets hlet gs (b ++ [g]) (by simpa using hnd) (fun g' hg' => hv g' (List.mem_cons_of_mem _ hg')) (by simpa using h)
    have hne : ∃ a2 as, gs.map (fun g => Value.tuple [.str "let", .var g.1, g.2]) ++ [a] = a2 :: as := by
      cases gs with
      | nil => exact ⟨_, _, rfl⟩
      | cons g' gs' => exact ⟨_, _, rfl⟩
    obtain ⟨a2, as, e⟩ := hne
    rw [e] at ih
    rw [List.map_cons, List.cons_append, e]
    simpa using solve_one_then h1 ih

theorem filled_congr {b b' : Binding} {h : HornRule} (hx : ∀ x, h.Has x → b.get x = b'.get x) : h.filled b = h.filled b' := by
  have e : ∀ v : Value, (∀ x, v = .var x → b.get x = b'.get x) → fillVar b v = fillVar b' v := by
    intro v hv
    cases v <;> simp only [fillVar]
    rw [hv _ rfl]
  simp only [HornRule.filled, HornRule.mk.injEq, true_and]
  exact ⟨List.map_congr_left fun v hv => e v fun x hvx => hx x (.inl (hvx ▸ hv)),
    List.map_congr_left fun a ha => by
      rw [List.map_congr_left fun v hv => e v fun x hvx => hx x (.inr ⟨a, ha, hvx ▸ hv⟩)]⟩

/-! ## One sentence -/

/-- An inference module, up to the way in which several rules are tried. -/
structure LikeInference (I : Module W) (li : Lens W InfState) : Prop where
  none : ∀ w p, (li.get w).relations.get p = none → I.relations w p = none
  learn : ∀ w p, (li.get w).relations.get p = some .learnRule → I.relations w p = some { predicate := p, query := learnRule li }
  rule : ∀ w p, (li.get w).relations.get p = some .handleRule → ∃ q, I.relations w p = some { predicate := p, query := q } ∧
    ∀ r, (li.get w).rules.get p = some [r] → ∀ db args b api w1 rows, solveRule r args api b w = .ok w1 rows → (li.get w1).rules.get p = some [r] →
      q db ⟨p, [], args, b, api⟩ w = .ok w1 (.rows rows)

theorem likeInference (li : Lens W InfState) : LikeInference (inferenceModule li) li := by
  refine ⟨fun w p h => by simp [inferenceModule, h], fun w p h => by simp [inferenceModule, h], fun w p h => ⟨handleRule li.get, by simp [inferenceModule, h], ?_⟩⟩
  intro r hr db args b api w1 rows hs _
  refine (handleRule_run (p := p) (db := db) hr).trans ?_
  simp only [solveRules, M.bind_run, hs]
  simp [M.pure_run]

section
variable {li : Lens W InfState} {l : Lens W SimpleStore} {before after : List (Module W)} {w : W} {I : Module W} (L : LikeInference I li)

theorem Teachable.put (T : Teachable li l before after w) (s : InfState) : Teachable li l before after (li.put s w) :=
  ⟨fun u s' => by rw [li.put_put, T.apart u s', T.apart u s, li.put_put],
   fun u s' => by rw [li.put_put]; exact T.others u s',
   fun u s' => by rw [li.put_put]; exact T.buffer u s'⟩

theorem Teachable.get_put (T : Teachable li l before after w) (u : SimpleStore) (s : InfState) : li.get (l.put u (li.put s w)) = s := by
  rw [T.apart, li.get_put]

theorem CanLearn.insert {s s' : InfState} (c : CanLearn s) {h : HornRule} (hb : ¬ Busy h.pred) (hi : insertRule h.toRule s = .ok s') : CanLearn s' := by
  obtain ⟨p, hp, _, h1, h2⟩ := insertRule_ok hi
  have : p = h.pred := by simpa [toRule_pred] using hp.symm
  subst this
  have hne : ∀ q, Busy q → h.pred ≠ q := fun q hq e => hb (e ▸ hq)
  refine ⟨?_, ?_, ?_, fun q hq => ?_⟩
  · rw [h1, Dict.get_set_of_ne _ _ (hne _ (.inr (.inl rfl)))]; exact c.learn
  · rw [h1, Dict.get_set_of_ne _ _ (hne _ (.inr (.inr (.inl rfl))))]; exact c.intent
  · rw [h2, Dict.get_set_of_ne _ _ (hne _ (.inr (.inr (.inl rfl))))]; exact c.rule
  · rw [h1, Dict.get_set_of_ne _ _ (hne _ ?_)]
    · exact c.free q hq
    · rcases hq with rfl | rfl | hq
      · exact .inl rfl
      · exact .inr (.inr (.inr (.inl rfl)))
      · exact .inr (.inr (.inr (.inr hq)))

include L in
theorem Teachable.notDefined (T : Teachable li l before after w) {s : InfState} (c : CanLearn s) {p : String} (hp : p = "let" ∨ p = "store")
    (u : SimpleStore) : NotDefined (before ++ I :: after) (l.put u (li.put s w)) p := by
  intro m hm
  have ho := T.others u s p (by rcases hp with rfl | rfl <;> simp)
  rcases List.mem_append.1 hm with hm | hm
  · exact ho m (by simp [hm])
  · rcases List.mem_cons.1 hm with rfl | hm
    · exact L.none _ p (by rw [T.get_put]; exact c.free p (by rcases hp with rfl | rfl <;> simp))
    · exact ho m (by simp [hm])

theorem Teachable.relation (T : Teachable li l before after w) {s : InfState} {p : String} (hp : p = "learn_rule" ∨ p = "sentence_learn")
    (hc : (coreTable W).get p = none) {r : Relation W}
    (hr : I.relations (li.put s w) p = some r) :
    findRelations (modelOf (before ++ I :: after)) (li.put s w) p = [r] := by
  have ho := T.others (l.get (li.put s w)) s p (by rcases hp with rfl | rfl <;> simp)
  rw [l.put_get] at ho
  have hb : findRelations before (li.put s w) p = [] := by
    simp only [findRelations, List.filterMap_eq_nil_iff]; exact fun m hm => ho m (by simp [hm])
  have ha : findRelations after (li.put s w) p = [] := by
    simp only [findRelations, List.filterMap_eq_nil_iff]; exact fun m hm => ho m (by simp [hm])
  have hcore : (coreModule W).relations (li.put s w) p = none := by simp [coreModule, hc]
  simp only [findRelations] at hb ha
  simp only [modelOf, findRelations, List.filterMap_cons, hcore, List.filterMap_append, hr, hb, ha, List.nil_append]

include L in
theorem Teachable.stores (T : Teachable li l before after w) {s : InfState} (c : CanLearn s) :
    StoresIn (before ++ I :: after) l outputRelations (li.put s w) := by
  refine ⟨fun u => T.notDefined L c (.inr rfl) u, fun u p cs hp => ?_⟩
  have hcore : (coreModule W).relations (l.put u (li.put s w)) p = none := by
    cases e : (coreTable W).get p with
    | none => simp [coreModule, e]
    | some f => have := (output_notReserved (W := W)).2.2 p f e; rw [this] at hp; simp at hp
  have hinf : I.relations (l.put u (li.put s w)) p = none :=
    L.none _ p (by rw [T.get_put]; exact c.free p (.inr (.inr ((Dict.has_iff _ _).2 ⟨_, hp⟩))))
  have hb := T.buffer u s p cs hp
  simp only [findRelations, List.filterMap_append] at hb
  simp only [modelOf, findRelations, List.filterMap_cons, hcore, List.filterMap_append, hinf, hb]

theorem get_append_of_ne {b : Binding} {u v : Value} {x : String} (h1 : x ≠ "Head") (h2 : x ≠ "Body") :
    Dict.get (b ++ [("Head", u), ("Body", v)]) x = Dict.get b x := by
  induction b with
  | nil => simp [Dict.get, h1.symm, h2.symm]
  | cons g b ih => obtain ⟨k, z⟩ := g; rw [List.cons_append, Dict.get_cons, Dict.get_cons, ih]

theorem get_append_new {b : Binding} {x : String} (h : Dict.get b x = none) (b' : Binding) : Dict.get (b ++ b') x = Dict.get b' x := by
  induction b with
  | nil => rfl
  | cons g b ih =>
    obtain ⟨k, z⟩ := g
    rw [Dict.get_cons] at h
    rw [List.cons_append, Dict.get_cons]
    split at h
    · simp at h
    · rename_i hk; rw [if_neg hk]; exact ih h

include L in
theorem teach_one (T : Teachable li l before after w) (c : CanLearn (li.get w)) (he : l.get w = SimpleStore.clear) {t : Teaching} (ok : t.Ok)
    {wg : Grammar WriteSem} {rule : WRule} {text : Str} (hrule : RepliesWith wg "ok" rule) (hl : TextRule rule "ok" text) (n m : Nat) :
    ∃ s' w2, insertRule (t.rule.filled t.given).toRule (li.get w) = .ok s' ∧
      (solverAt (modelOf (before ++ I :: after)) (n + 3)).solve t.meaning [] w = .ok w2 (.rows [t.given]) ∧
      generateOutput (solverAt (modelOf (before ++ I :: after)) (n + 3)) wg l (m + 1) w2 = .ok (li.put s' w) (.str (String.ofList text)) := by
  obtain ⟨s', hs'⟩ := (C11_insert_succeeds (t.rule.filled t.given).toRule (li.get w)).2 ⟨t.rule.pred, _, rfl, ok.word⟩
  have c' := c.insert (h := t.rule.filled t.given) ok.idle hs'
  have hw : li.put (li.get w) w = w := li.put_get w
  have hnone : ∀ x, x = "Head" ∨ x = "Body" → Dict.get t.given x = none := by
    intro x hx
    cases e : Dict.get t.given x with
    | none => rfl
    | some v =>
      have := ok.names _ (Dict.mem_of_get e)
      rcases hx with rfl | rfl
      · exact absurd rfl this.1
      · exact absurd rfl this.2
  have hstores := T.stores L c'
  have hclear : l.put SimpleStore.clear (li.put s' w) = li.put s' w := by
    rw [T.apart, ← he, l.put_get]
  have hempty : l.get (li.put s' w) = SimpleStore.clear := by rw [← hclear, l.get_put]
  -- the body of the intent
  have hrb : (solverAt (modelOf (before ++ I :: after)) (n + 2)).solve (.list [.tuple [.str "learn_rule", .var "Head", .var "Body"]])
      (t.given ++ [("Head", .tuple (.str t.rule.pred :: t.rule.args)), ("Body", .list (t.rule.body.map toAtom))]) w =
      .ok (li.put s' w) (.rows [t.given ++ [("Head", .tuple (.str t.rule.pred :: t.rule.args)), ("Body", .list (t.rule.body.map toAtom))]]) := by
    have hrel := T.relation (s := li.get w) (.inl rfl) rfl (r := { predicate := "learn_rule", query := learnRule li }) (L.learn _ _ (by rw [li.get_put]; exact c.learn))
    rw [hw] at hrel
    refine learn_atom li hrel (head := .str t.rule.pred :: t.rule.args) (body := t.rule.body.map toAtom) ?_ ?_ _ ?_
    · rw [get_append_new (hnone _ (.inl rfl))]; rfl
    · rw [get_append_new (hnone _ (.inr rfl))]; rfl
    · have := filled_toRule (t.given ++ [("Head", .tuple (.str t.rule.pred :: t.rule.args)), ("Body", .list (t.rule.body.map toAtom))]) ok.flat
      rw [filled_congr (b' := t.given) fun x hx => get_append_of_ne (fun e => ok.free.1 (e ▸ hx)) (fun e => ok.free.2 (e ▸ hx))] at this
      rw [this] at hs'
      simpa [bindVarsList, bindVars] using hs'
  obtain ⟨w2, h2, h3, h4⟩ := stores_run hstores (atoms := [("output_type", [.str "ok"])]) (by
    intro a ha; simp at ha; subst ha; decide +kernel)
    (t.given ++ [("Head", .tuple (.str t.rule.pred :: t.rule.args)), ("Body", .list (t.rule.body.map toAtom))]) hempty n
  have hbody := solve_pair hrb h2
  have h5 : li.get w2 = s' := by rw [← l.put_get w2, h4, T.get_put]
  obtain ⟨q, hq, hrun⟩ := L.rule w "sentence_learn" c.intent
  have hi : findRelations (modelOf (before ++ I :: after)) w "sentence_learn" = [{ predicate := "sentence_learn", query := q }] := by
    have hrel := T.relation (I := I) (s := li.get w) (.inr rfl) rfl (r := { predicate := "sentence_learn", query := q }) (by rw [hw]; exact hq)
    rwa [hw] at hrel
  have hwithout : Dict.without t.given learnIntent.variables = t.given := by
    refine List.filter_eq_self.2 fun g hg => ?_
    have := ok.names g hg
    simp [learnIntent, Rule.variables, varsOfList, varsOf, this.1, this.2]
  have hsent := intent_at (n := n + 2) (b := t.given) hi (fun db args b api rows h => hrun _ c.rule db args b api w2 rows h (by rw [h5]; exact c'.rule)) (xs := ["Head", "Body"])
    (args := [.tuple (.str t.rule.pred :: t.rule.args), .list (t.rule.body.map toAtom)]) rfl (by decide) rfl (values_two rfl rfl) (by decide) rfl hwithout
    (by intro x hx; simp at hx; exact hnone x hx) hbody
  have hlet : NotDefined (before ++ I :: after) w "let" := by
    have := T.notDefined L (s := li.get w) c (.inl rfl) (l.get w)
    rwa [hw, l.put_get] at this
  refine ⟨s', w2, hs', ?_, ?_⟩
  · have := solve_lets hlet t.given [] (by simpa using ok.once) ok.values hsent
    simpa [Teaching.meaning, toQuery] using this
  · have := text_reply (hstores.congr h4) h3 hrule hl (k := n + 2) m
    rw [this, h4, hclear]

theorem canLearn_inserted {rs : List HornRule} {s : InfState} (hrs : ∀ r ∈ rs, ¬ Busy r.pred)
    (hins : insertAll (learnIntent :: rs.map HornRule.toRule) InfState.init = .ok s) : CanLearn s := by
  have hno : ∀ p, Busy p → ¬ ∃ r ∈ rs.map HornRule.toRule, r.pred = some p := by
    rintro p hp ⟨r, hr, e⟩
    obtain ⟨r', hr', rfl⟩ := List.mem_map.1 hr
    rw [toRule_pred] at e
    exact hrs r' hr' (by simpa using (Option.some.inj e) ▸ hp)
  have h := fun p => insertAll_rules hins p
  have hpred : learnIntent.pred = some "sentence_learn" := rfl
  have hrel : ∀ p, Busy p → s.relations.get p = if p = "sentence_learn" then some .handleRule else InfState.init.relations.get p := by
    intro p hp
    rw [(h p).2.2]
    by_cases e : p = "sentence_learn"
    · subst e; rw [if_pos ⟨_, List.mem_cons_self, hpred⟩, if_pos rfl]
    · rw [if_neg e, if_neg]
      rintro ⟨r, hr, er⟩
      rcases List.mem_cons.1 hr with rfl | hr
      · rw [hpred] at er; exact e (Option.some.inj er).symm
      · exact hno p hp ⟨r, hr, er⟩
  have b2 : Busy "learn_rule" := .inr (.inl rfl)
  have b3 : Busy "sentence_learn" := .inr (.inr (.inl rfl))
  refine ⟨hrel _ b2, hrel _ b3, ?_, fun p hp => ?_⟩
  · obtain ⟨h1, h2, _⟩ := h "sentence_learn"
    obtain ⟨x, hx⟩ := (Dict.has_iff _ _).1 (h2.2 (.inr ⟨_, List.mem_cons_self, hpred⟩))
    rw [hx] at h1 ⊢
    simp only [Option.getD_some, InfState.init, Dict.get_nil, Option.getD_none, List.nil_append] at h1
    rw [h1, List.filter_cons, if_pos (by simp [hpred]), List.filter_eq_nil_iff.2]
    intro r hr
    simpa using fun e => hno _ b3 ⟨r, hr, e⟩
  · have hb : Busy p := by
      rcases hp with rfl | rfl | hp
      · exact .inl rfl
      · exact .inr (.inr (.inr (.inl rfl)))
      · exact .inr (.inr (.inr (.inr hp)))
    have hne : p ≠ "sentence_learn" ∧ p ≠ "learn_rule" := by
      constructor <;> rintro rfl <;> simp [outputRelations, Dict.has, Dict.get] at hp
    rw [hrel p hb, if_neg hne.1]
    simp [InfState.init, Dict.get, hne.2.symm]

theorem learnIntent_bound : learnIntent.HeadBound := by
  intro p hargs body e x hx
  have : learnIntent = (⟨"sentence_learn", [.var "Head", .var "Body"],
      [("learn_rule", [.var "Head", .var "Body"]), ("store", [.list [.tuple [.str "output_type", .str "ok"]]])]⟩ : HornRule).toRule := rfl
  rw [this] at e
  have := toRule_injective (r' := ⟨p, hargs, body⟩) e
  simp only [HornRule.mk.injEq] at this
  obtain ⟨_, rfl, rfl⟩ := this
  simp [queryVars] at hx ⊢
  exact hx

/-! ## Sessions -/

variable {dbs dbs' : List (Dict (List (List Value)))} {wg : Grammar WriteSem} {rule : WRule} {text : Str}

theorem SensibleTurns.put {ts : List ClassTurn} {rs : List HornRule} (h : SensibleTurns li before after dbs dbs' w rs ts) (s1 : InfState) :
    SensibleTurns li before after dbs dbs' (li.put s1 w) rs ts := by
  induction ts generalizing rs with
  | nil => trivial
  | cons t ts ih =>
    cases t with
    | teach t => exact ⟨h.1, ih h.2⟩
    | ask q b =>
      obtain ⟨⟨ar, a1, a2, a3, a4, a5⟩, h2⟩ := h
      exact ⟨⟨ar, a1, a2, a3, a4, fun s => by rw [li.put_put]; exact a5 s⟩, ih h2⟩

theorem turns_good (hrule : RepliesWith wg "ok" rule) (hl : TextRule rule "ok" text) (n m : Nat) (ts : List ClassTurn) :
    ∀ {rs : List HornRule} {w : W}, Teachable li l before after w → l.get w = SimpleStore.clear → (∀ r ∈ rs, ¬ Busy r.pred) →
    insertAll (learnIntent :: rs.map HornRule.toRule) InfState.init = .ok (li.get w) → SensibleTurns li before after dbs dbs' w rs ts →
    runTurns (solverAt (modelOf (before ++ inferenceModule li :: after)) (n + 3)) wg l (m + 1) ts w = .oof ∨
    ∃ outs s', runTurns (solverAt (modelOf (before ++ inferenceModule li :: after)) (n + 3)) wg l (m + 1) ts w = .ok (li.put s' w) outs ∧
      RightTurns (dbs ++ dbs') (String.ofList text) rs ts outs ∧
      insertAll (learnIntent :: (rs ++ taughtIn ts).map HornRule.toRule) InfState.init = .ok s' := by
  induction ts with
  | nil =>
    intro rs w T he hrs hins hts
    exact .inr ⟨[], li.get w, by rw [li.put_get]; rfl, trivial, by simpa [taughtIn] using hins⟩
  | cons t ts ih =>
    intro rs w T he hrs hins hts
    have c := canLearn_inserted hrs hins
    cases t with
    | teach t =>
      obtain ⟨hok, hts'⟩ := hts
      obtain ⟨s1, w2, h1, h2, h3⟩ := teach_one (likeInference li) T c he hok hrule hl n m
      have hclear : l.put SimpleStore.clear (li.put s1 w) = li.put s1 w := by rw [T.apart, ← he, l.put_get]
      have hins1 : insertAll (learnIntent :: (rs ++ [t.rule.filled t.given]).map HornRule.toRule) InfState.init = .ok (li.get (li.put s1 w)) := by
        rw [li.get_put, List.map_append, ← List.cons_append, insertAll_append hins]
        simp only [List.map_cons, List.map_nil, insertAll, h1]
      have hsens := hts'.put s1
      simp only [runTurns]
      rw [M.bind_ok h2, M.bind_ok h3]
      rcases ih (T.put s1) (by rw [← hclear, l.get_put]) (fun r hr => by
        rcases List.mem_append.1 hr with hr | hr
        · exact hrs r hr
        · rw [List.mem_singleton.1 hr]; exact hok.idle) hins1 hsens with h4 | ⟨outs, s', h4, h5, h6⟩
      · left; rw [M.bind_run, h4]
      · right
        rw [M.bind_ok h4, li.put_put]
        exact ⟨_, s', rfl, ⟨rfl, h5⟩, by simpa [taughtIn] using h6⟩
    | ask q b =>
      obtain ⟨⟨ar, a1, a2, a3, a4, a5⟩, hts'⟩ := hts
      have a6 := a5 (li.get w)
      rw [li.put_get] at a6
      simp only [runTurns]
      rcases solve_exact_others li w ar a6.1 a6.2 [learnIntent] rs a1
        (by
          intro e he
          rw [List.mem_singleton.1 he]
          refine ⟨by decide, fun p k hp e => ?_⟩
          have : p = "sentence_learn" := (Option.some.inj e).symm
          subst this; rw [a2] at hp; simp at hp)
        (by intro e he; rw [List.mem_singleton.1 he]; exact learnIntent_bound) hins a3 a4 (n + 3) with h1 | ⟨bs, h1, h2⟩
      · left; rw [M.bind_run, h1]
      · rw [M.bind_ok h1]
        rcases ih T he hrs hins hts' with h4 | ⟨outs, s', h4, h5, h6⟩
        · left; rw [M.bind_run, h4]
        · right
          rw [M.bind_ok h4]
          exact ⟨_, s', rfl, ⟨h2.1, h2.2.1, h2.2.2, h5⟩, by simpa [taughtIn] using h6⟩

/-- **C105** A session of sentences that teach rules and of questions: each sentence that teaches gets the text for "ok", and each question exactly the
answers that follow from the stored rows, the rules of the start and the rules taught before. At the end the inference module holds the intent, the rules
of the start and the taught rules in order, with the given values filled in; nothing else has changed. -/
theorem C105_session (T : Teachable li l before after w) (he : l.get w = SimpleStore.clear) {rs : List HornRule} (hrs : ∀ r ∈ rs, ¬ Busy r.pred)
    (hins : insertAll (learnIntent :: rs.map HornRule.toRule) InfState.init = .ok (li.get w)) {ts : List ClassTurn}
    (hts : SensibleTurns li before after dbs dbs' w rs ts) (hrule : RepliesWith wg "ok" rule) (hl : TextRule rule "ok" text) {n m : Nat}
    {w' : W} {outs : List TurnOut}
    (h : runTurns (solverAt (modelOf (before ++ inferenceModule li :: after)) (n + 3)) wg l (m + 1) ts w = .ok w' outs) :
    RightTurns (dbs ++ dbs') (String.ofList text) rs ts outs ∧
      ∃ s', w' = li.put s' w ∧ insertAll (learnIntent :: (rs ++ taughtIn ts).map HornRule.toRule) InfState.init = .ok s' := by
  rcases turns_good hrule hl n m ts T he hrs hins hts with h1 | ⟨outs', s', h1, h2, h3⟩
  · rw [h] at h1; simp at h1
  · rw [h] at h1
    simp only [Res.ok.injEq] at h1
    obtain ⟨rfl, rfl⟩ := h1
    exact ⟨h2, s', rfl, h3⟩

/-- **C105** No turn of such a session raises an exception. -/
theorem C105_no_exception (T : Teachable li l before after w) (he : l.get w = SimpleStore.clear) {rs : List HornRule} (hrs : ∀ r ∈ rs, ¬ Busy r.pred)
    (hins : insertAll (learnIntent :: rs.map HornRule.toRule) InfState.init = .ok (li.get w)) {ts : List ClassTurn}
    (hts : SensibleTurns li before after dbs dbs' w rs ts) (hrule : RepliesWith wg "ok" rule) (hl : TextRule rule "ok" text) (n m : Nat)
    (w' : W) (e : Err) :
    runTurns (solverAt (modelOf (before ++ inferenceModule li :: after)) (n + 3)) wg l (m + 1) ts w ≠ .err w' e := by
  rcases turns_good hrule hl n m ts T he hrs hins hts with h1 | ⟨outs', s', h1, _⟩ <;> rw [h1] <;> simp

/-- **C105** A sentence that teaches always returns, with the text for "ok"; the rule is stored behind the rules that were there, with the given values
filled in, and the output buffer is empty again. -/
theorem C105_sentence (T : Teachable li l before after w) (he : l.get w = SimpleStore.clear) {rs : List HornRule} (hrs : ∀ r ∈ rs, ¬ Busy r.pred)
    (hins : insertAll (learnIntent :: rs.map HornRule.toRule) InfState.init = .ok (li.get w)) {t : Teaching} (ok : t.Ok)
    (hrule : RepliesWith wg "ok" rule) (hl : TextRule rule "ok" text) (n m : Nat) :
    ∃ w2 s', (solverAt (modelOf (before ++ inferenceModule li :: after)) (n + 3)).solve t.meaning [] w = .ok w2 (.rows [t.given]) ∧
      generateOutput (solverAt (modelOf (before ++ inferenceModule li :: after)) (n + 3)) wg l (m + 1) w2 = .ok (li.put s' w) (.str (String.ofList text)) ∧
      (∀ p, (s'.rules.get p).getD [] = ((li.get w).rules.get p).getD [] ++ if p = t.rule.pred then [(t.rule.filled t.given).toRule] else []) ∧
      l.get (li.put s' w) = SimpleStore.clear := by
  obtain ⟨s', w2, h1, h2, h3⟩ := teach_one (likeInference li) T (canLearn_inserted hrs hins) he ok hrule hl n m
  refine ⟨w2, s', h2, h3, fun p => ?_, ?_⟩
  · obtain ⟨p', hp, _, _, h4⟩ := insertRule_ok h1
    have : p' = t.rule.pred := by simpa [toRule_pred, HornRule.filled] using hp.symm
    subst this
    rw [h4, Dict.get_set]
    by_cases e : p = t.rule.pred
    · subst e; simp
    · simp [e, Ne.symm e]
  · have hclear : l.put SimpleStore.clear (li.put s' w) = li.put s' w := by rw [T.apart, ← he, l.put_get]
    rw [← hclear, l.get_put]

end

namespace Ex

/-- An inference module and an output buffer. -/
abbrev Pupil := InfState × SimpleStore

instance : DecidableEq SimpleStore := inferInstanceAs (DecidableEq (List (String × List (List (String × Value)))))

/-- The family, an inference module with the intent and the rules for ancestors, and an output buffer. -/
def pupil : Pupil :=
  ({ relations := [("learn_rule", .learnRule), ("sentence_learn", .handleRule), ("ancestor", .handleRule)]
     rules := [("sentence_learn", [learnIntent]), ("ancestor", ancestorRules.map HornRule.toRule)] }, SimpleStore.clear)

def pupilTables : List (Module Pupil) := [tableModule Pupil family]
def pupilBuffer : List (Module Pupil) := [outputBuffer (Lens.snd InfState SimpleStore)]

theorem pupil_inserted : insertAll (learnIntent :: ancestorRules.map HornRule.toRule) InfState.init = .ok ((Lens.fst InfState SimpleStore).get pupil) := by
  decide +kernel

theorem pupil_teachable : Teachable (Lens.fst InfState SimpleStore) (Lens.snd InfState SimpleStore) pupilTables pupilBuffer pupil := by
  refine ⟨fun _ _ => rfl, fun u s p hp m hm => ?_, fun u s p cs hp => ?_⟩
  · simp only [pupilTables, pupilBuffer, List.cons_append, List.nil_append, List.mem_cons, List.not_mem_nil, or_false] at hm
    rcases hp with rfl | rfl | rfl | rfl <;> rcases hm with rfl | rfl <;> rfl
  · have hne : p ≠ "parent" := by rintro rfl; simp [outputRelations, Dict.get] at hp
    simp [pupilTables, pupilBuffer, findRelations, tableModule, family, Dict.get, hne.symm, outputBuffer, memoryModule]
    simp [hp]

theorem pupil_free : ∀ r ∈ ancestorRules, ¬ Busy r.pred := by
  intro r hr
  simp only [ancestorRules, List.mem_cons, List.not_mem_nil, or_false] at hr
  rcases hr with rfl | rfl <;> simp [Busy] <;> decide

/-- A sentence that teaches a fact, and one that teaches a rule in which `E` has a value. -/
def tellZed : Teaching := ⟨[], zed⟩
def tellReversed : Teaching := ⟨[("E", .str "cas")], reversed⟩

theorem tellZed_ok : tellZed.Ok :=
  ⟨by simp [tellZed], by simp [tellZed], by simp [tellZed], ancestor_word, by simp [tellZed, HornRule.Flat, zed, FlatValue],
    by simp [tellZed, HornRule.Has, zed], by simp [Busy, tellZed, zed]; decide⟩

theorem tellReversed_ok : tellReversed.Ok :=
  ⟨by simp [tellReversed], by simp [tellReversed, Value.isVar], by simp [tellReversed], ancestor_word,
    by simp [tellReversed, HornRule.Flat, reversed, FlatValue], by simp [tellReversed, HornRule.Has, reversed], by simp [Busy, tellReversed, reversed]; decide⟩

/-- Ask, teach, teach, ask. -/
def pupilTurns : List ClassTurn := [.ask annQuery [], .teach tellZed, .teach tellReversed, .ask annQuery []]

theorem pupil_ok {rs : List HornRule} (hex : ∃ r ∈ rs, r.pred = "ancestor")
    (h : ∀ r ∈ rs, familyAr r.pred = some r.args.length ∧ ArgsOk r.args ∧ QueryOk familyAr r.body) : ProgramOk Pupil familyAr ([family] ++ [[]]) rs := by
  refine ⟨⟨by decide, by decide, fun p f hf => ?_⟩, fun p k hp => ?_, fun p k hp db hdb rows hr => ?_, h⟩
  · have hne : p ≠ "parent" ∧ p ≠ "ancestor" := by
      constructor <;> rintro rfl <;> simp [coreTable, Dict.get] at hf
    simp [familyAr, hne.1, hne.2]
  · rcases (school_ok hex h).defined p k hp with ⟨db, hdb, h1⟩ | h1
    · exact .inl ⟨db, List.mem_append_left _ hdb, h1⟩
    · exact .inr h1
  · rcases List.mem_append.1 hdb with hdb | hdb
    · exact family_ok.rowsOk p k hp db hdb rows hr
    · rw [List.mem_singleton.1 hdb] at hr; simp at hr

theorem pupil_facts (s : InfState) : FactModules familyAr ((Lens.fst InfState SimpleStore).put s pupil) pupilTables [family] ∧
    FactModules familyAr ((Lens.fst InfState SimpleStore).put s pupil) pupilBuffer [[]] := by
  refine ⟨tableModules_fact familyAr _ [family], fun p k hp => ?_, trivial⟩
  simp only [familyAr] at hp
  split at hp
  · subst_vars; rfl
  · split at hp
    · subst_vars; rfl
    · cases hp

theorem pupil_sensible : SensibleTurns (Lens.fst InfState SimpleStore) pupilTables pupilBuffer [family] [[]] pupil ancestorRules pupilTurns := by
  refine ⟨⟨familyAr, pupil_ok ⟨_, List.mem_cons_self, rfl⟩ (fun r hr => school_rules r (List.mem_append_left _ hr)), by decide, family_query_ok, noBinding,
    pupil_facts⟩, tellZed_ok, tellReversed_ok, ⟨familyAr, pupil_ok ⟨_, List.mem_cons_self, rfl⟩ (fun r hr => school_rules r ?_), by decide, family_query_ok,
    noBinding, pupil_facts⟩, trivial⟩
  simpa [taught, session, tellZed, tellReversed] using hr

variable (H : Constituent → List Constituent → Nat) (f : List Value → Except Err Value)

theorem pupil_reply : RepliesWith (homeWrite H f) "ok" (sayRule H "ok" ['O', 'K']) := ⟨[], _, rfl, by simp⟩

/-- What the turns give. -/
theorem pupil_run : runTurns (solverAt (modelOf (pupilTables ++ inferenceModule (Lens.fst InfState SimpleStore) :: pupilBuffer)) (5 + 3))
      (homeWrite (fun _ _ => 0) (fun _ => .ok (.str ""))) (Lens.snd InfState SimpleStore) (0 + 1) pupilTurns pupil =
    .ok ((Lens.fst InfState SimpleStore).put ⟨pupil.1.relations, [("sentence_learn", [learnIntent]),
        ("ancestor", (ancestorRules ++ taughtIn pupilTurns).map HornRule.toRule)]⟩ pupil)
      [.answers (.rows [[("W", .str "bob")], [("W", .str "cas")], [("W", .str "dan")]]), .reply (.str "OK"), .reply (.str "OK"),
       .answers (.rows [[("W", .str "bob")], [("W", .str "cas")], [("W", .str "dan")], [("W", .str "zed")]])] := by
  decide +kernel

/-- The hypotheses of the theorems are met by it. -/
example := C105_session pupil_teachable rfl pupil_free pupil_inserted pupil_sensible (pupil_reply _ _) ((say_rules _ (fun _ => .ok (.str ""))).1 "ok" _) pupil_run
example := C105_no_exception pupil_teachable rfl pupil_free pupil_inserted pupil_sensible (pupil_reply H f) ((say_rules H f).1 "ok" _) 4 2
example := C105_sentence pupil_teachable rfl pupil_free pupil_inserted tellReversed_ok (pupil_reply H f) ((say_rules H f).1 "ok" _) 4 2

/-- **C105** The condition on the names of the variables is needed: the variables of the meaning are not renamed when the intent is called, so a variable
`Body` in the rule that is taught is replaced by the whole body. -/
theorem C105_capture : runTurns (solverAt (modelOf (pupilTables ++ inferenceModule (Lens.fst InfState SimpleStore) :: pupilBuffer)) 4)
      (homeWrite (fun _ _ => 0) (fun _ => .ok (.str ""))) (Lens.snd InfState SimpleStore) 1
      [.teach ⟨[], ⟨"offspring", [.var "Body"], [("parent", [.str "ann", .var "Body"])]⟩⟩] pupil =
    .ok ((Lens.fst InfState SimpleStore).put ⟨pupil.1.relations ++ [("offspring", .handleRule)], pupil.1.rules ++
        [("offspring", [⟨[.str "offspring", .list [.tuple [.str "parent", .str "ann", .var "Body"]]],
          .list [.tuple [.str "parent", .str "ann", .list [.tuple [.str "parent", .str "ann", .var "Body"]]]]⟩])]⟩ pupil)
      [.reply (.str "OK")] := by
  decide +kernel

end Ex

end Verif

import Verif.Props.Dialogues
import Verif.Props.SolverMore

/-!
# C109: claims that are checked before they are stored
-/

namespace Verif

variable {W : Type}

/-! ## Specification -/

/-- `check_claim(Atom)` -/
def checkClaim : Value := .tuple [.str "check_claim", .var "Atom"]

/-- `store(output_type(t))` -/
def storeType (t : String) : Value := .tuple [.str "store", .list [.tuple [.str "output_type", .str t]]]

/-- `intent_claim(Atom) :- not(check_claim(Atom)), store(output_type('impossible')).` (`tests/integration/sir/intents.pl:60`) -/
def refuseRule : Rule := ⟨[.str "intent_claim", .var "Atom"], .list [.tuple [.str "not", .list [checkClaim]], storeType "impossible"]⟩

/-- `intent_claim(Atom) :- check_claim(Atom), store(Atom), store(output_type('understand')).` (`tests/integration/sir/intents.pl:61`) -/
def acceptRule : Rule :=
  ⟨[.str "intent_claim", .var "Atom"], .list [checkClaim, .tuple [.str "store", .var "Atom"], storeType "understand"]⟩

/-- The meaning of a sentence that claims facts. -/
def claimMeaning (facts : Query) : Value := .list [.tuple [.str "intent_claim", toQuery facts]]

/-- The inference module has the two rules for claims in this order, and no rules for what they use. -/
structure CanClaim (s : InfState) : Prop where
  intent : s.relations.get "intent_claim" = some .handleRule
  rule : s.rules.get "intent_claim" = some [refuseRule, acceptRule]
  free : ∀ p, p = "let" ∨ p = "store" ∨ outputRelations.has p = true → s.relations.get p = none
  freeNot : s.relations.get "not" = none

/-- The tables and what is claimed are not about claiming. -/
def NoClaims (rels : Dict (List String)) (tables : List (Dict (List (List Value)))) : Prop :=
  rels.get "intent_claim" = none ∧ ∀ db ∈ tables, db.get "intent_claim" = none ∧ db.get "not" = none

/-- The check of the claim, with enough depth, leaves the world alone and has these answers, whatever is in the output buffer. -/
def Checked (li : Lens W InfState) (l lf : Lens W SimpleStore) (rels : Dict (List String)) (tables : List (Dict (List (List Value)))) (n : Nat) (w : W)
    (facts : Query) (bs : List Binding) : Prop :=
  ∀ u, (solverAt (modelOf (tellModules li l lf rels tables)) n).solve (.list [checkClaim]) [("Atom", toQuery facts)] (l.put u w) = .ok (l.put u w) (.rows bs)

/-! ## Rules for claims -/

/-- An atom with values as arguments, whose relation gives just these values. -/
theorem intent_rows {ms : List (Module W)} {w w' : W} {p : String} {args : List Value} {n : Nat} {b : Binding} {q : List Value → Ctx W → M W QOut}
    (hi : findRelations (modelOf ms) w p = [{ predicate := p, query := q }]) (hargs : ∀ a ∈ args, a.isVar = false) (hp : p ≠ "$disjunction")
    (h : ∀ db, q db ⟨p, [], args, b, solverAt (modelOf ms) n⟩ w = .ok w' (.rows [args])) :
    (solverAt (modelOf ms) (n + 1)).solve (.list [.tuple (.str p :: args)]) b w = .ok w' (.rows [b]) := by
  have hf : findRelationValues (solverAt (modelOf ms) n) (modelOf ms) p args b w = .ok w' (.rows [args]) := by
    rw [findRelationValues, M.bind_ok (M.gets_run _ w), hi]
    simp only [queryRelations]
    rw [M.bind_ok (h _)]
    simp [M.pure_run, dedupRows]
  show solveSingle.go (solverAt (modelOf ms) n) (modelOf ms) b p args w = _
  simp only [solveSingle.go, hp, if_false]
  rw [M.bind_ok hf, resultsOf_one rfl w' (extendRow_own b args hargs b false)]
  rfl

/-- A rule with one variable in its head, called with a value. -/
theorem rule_rows {ms : List (Module W)} {w w' : W} {r : Rule} {p : String} {v : Value} {n : Nat} {bs : List Binding}
    (hhead : r.head = [.str p, .var "Atom"]) (hv : v.isVar = false) (hbody : emptyBody r.body = false)
    (h : (solverAt (modelOf ms) n).solve r.body [("Atom", v)] w = .ok w' (.rows bs)) :
    solveRule r [v] (solverAt (modelOf ms) n) [] w = .ok w' (bs.map fun _ => [v]) := by
  have hargs : ∀ a ∈ [v], a.isVar = false := by intro a ha; rw [List.mem_singleton.1 ha]; exact hv
  have hrb : bindHead [] r.head.tail [v] (Dict.without [] r.variables) = some [("Atom", v)] := by
    rw [hhead]
    exact bindHead_values ["Atom"] [v] [] (by simp) (by simp) rfl hargs
  simp only [solveRule, hrb, hbody, Bool.false_eq_true, if_false]
  rw [M.bind_ok h]
  simp only [ruleRows, headRows_values r.head.tail [v] (by rw [hhead]; rfl) hargs]
  rfl

section
variable {li : Lens W InfState} {l lf : Lens W SimpleStore} {rels : Dict (List String)} {tables : List (Dict (List (List Value)))}
  {rs : List HornRule} {ar : String → Option Nat} (S : TellSystem li l lf rels tables rs ar)

theorem memoryModule_mono (l : Lens W SimpleStore) (rels : Dict (List String)) (w : W) (p : String) (r : Relation W)
    (h : (memoryModule l rels).relations w p = some r) : r.Mono := by
  simp only [memoryModule, Option.map_eq_some_iff] at h
  obtain ⟨cs, -, rfl⟩ := h
  refine ⟨fun _ _ _ _ _ _ _ _ => M.Le.refl _, fun f h => ?_⟩
  simp only [memoryRelation, Option.some.injEq] at h
  subst h
  exact fun _ _ _ _ _ _ _ _ => M.Le.refl _

theorem tellModules_mono : MonoMods (modelOf (tellModules li l lf rels tables)) := by
  intro m hm w p r hr
  simp only [modelOf, tellModules, List.mem_cons, List.mem_append, List.mem_map, List.not_mem_nil, or_false] at hm
  rcases hm with rfl | (⟨db, -, rfl⟩ | rfl) | rfl | rfl
  · exact coreModule_mono w p r hr
  · exact tableModule_mono db w p r hr
  · exact memoryModule_mono lf rels w p r hr
  · exact inferenceModule_mono li w p r hr
  · exact memoryModule_mono l outputRelations w p r hr

theorem Checked.deeper {n : Nat} {w : W} {facts : Query} {bs : List Binding} (h : Checked li l lf rels tables n w facts bs) :
    Checked li l lf rels tables (n + 1) w facts bs := by
  intro u
  rcases (solverAt_le (tellModules_mono (li := li) (l := l) (lf := lf) (rels := rels) (tables := tables)) (Nat.le_succ n)).solve (.list [checkClaim])
    [("Atom", toQuery facts)] (l.put u w) with e | e
  · rw [h u] at e; simp at e
  · rw [← e]; exact h u

include S in
theorem not_here (hn : NoClaims rels tables) {w : W} (c : CanClaim (li.get w)) : NotDefined (tellModules li l lf rels tables) w "not" := by
  intro m hm
  simp only [tellModules, List.mem_cons, List.mem_append, List.mem_map, List.not_mem_nil, or_false] at hm
  rcases hm with (⟨db, hdb, rfl⟩ | rfl) | rfl | rfl
  · simp [tableModule, (hn.2 db hdb).2]
  · simp [memoryModule, S.reserved.2.2 "not" _ rfl]
  · simp [inferenceModule, c.freeNot]
  · rfl

theorem claim_found (hn : NoClaims rels tables) {w : W} (c : CanClaim (li.get w)) :
    findRelations (modelOf (tellModules li l lf rels tables)) w "intent_claim" = [{ predicate := "intent_claim", query := handleRule li.get }] := by
  have hb : findRelations (tables.map (tableModule W)) w "intent_claim" = [] := by
    simp only [findRelations, List.filterMap_eq_nil_iff, List.mem_map]
    rintro m ⟨db, hdb, rfl⟩
    simp [tableModule, (hn.2 db hdb).1]
  have hcore : (coreModule W).relations w "intent_claim" = none := rfl
  have hinf : (inferenceModule li).relations w "intent_claim" = some { predicate := "intent_claim", query := handleRule li.get } := by
    simp [inferenceModule, c.intent]
  have hout : (outputBuffer l).relations w "intent_claim" = none := rfl
  have hmem : (memoryModule lf rels).relations w "intent_claim" = none := by simp [memoryModule, hn.1]
  simp only [findRelations] at hb
  simp only [modelOf, tellModules, findRelations, List.filterMap_cons, hcore, List.filterMap_append, hb, hinf, hout, hmem, List.filterMap_nil,
    List.nil_append, List.append_nil]

theorem claim_rules {w w1 w2 : W} (c : CanClaim (li.get w)) {v : Value} {n : Nat} {rows1 rows2 : List (List Value)}
    (h1 : solveRule refuseRule [v] (solverAt (modelOf (tellModules li l lf rels tables)) n) [] w = .ok w1 rows1)
    (h2 : solveRule acceptRule [v] (solverAt (modelOf (tellModules li l lf rels tables)) n) [] w1 = .ok w2 rows2) (db : List Value) :
    handleRule li.get db ⟨"intent_claim", [], [v], [], solverAt (modelOf (tellModules li l lf rels tables)) n⟩ w = .ok w2 (.rows (rows1 ++ rows2)) := by
  refine (handleRule_run (p := "intent_claim") (db := db) c.rule).trans ?_
  simp only [solveRules, M.bind_run, h1, h2]
  simp [M.pure_run]

variable {wg : Grammar WriteSem} {rule : WRule} {text : Str}

include S in
/-- **C109** A claim whose check has no answers is refused: the reply is the text for "impossible", and nothing has changed. -/
theorem C109_refused (hn : NoClaims rels tables) {w : W} (c : CanClaim (li.get w)) (he : l.get w = SimpleStore.clear) {facts : Query} {n : Nat}
    (hcheck : Checked li l lf rels tables (n + 1) w facts []) (hrule : RepliesWith wg "impossible" rule) (hl : TextRule rule "impossible" text) (m : Nat) :
    ∃ w2, (solverAt (modelOf (tellModules li l lf rels tables)) (n + 3)).solve (claimMeaning facts) [] w = .ok w2 (.rows [[]]) ∧
      generateOutput (solverAt (modelOf (tellModules li l lf rels tables)) (n + 3)) wg l (m + 1) w2 = .ok w (.str (String.ofList text)) := by
  have hw : l.put (l.get w) w = w := l.put_get w
  have hnot : (solverAt (modelOf (tellModules li l lf rels tables)) (n + 2)).solve (.list [.tuple [.str "not", .list [checkClaim]]])
      [("Atom", toQuery facts)] w = .ok w (.rows [[("Atom", toQuery facts)]]) := by
    have := C13_not (tellModules li l lf rels tables) w (n := n + 1) (b := [("Atom", toQuery facts)]) (a := .list [checkClaim]) (body := .list [checkClaim]) (not_here S hn c) rfl
    have h1 := hcheck (l.get w)
    rw [hw] at h1
    rw [h1] at this
    exact this
  have hstores := S.stores c.free
  obtain ⟨w2, h2, h3, h4⟩ := stores_run hstores (atoms := [("output_type", [.str "impossible"])]) (by
    intro a ha; simp at ha; subst ha; decide +kernel) [("Atom", toQuery facts)] he n
  have hr1 := rule_rows (r := refuseRule) rfl rfl rfl (solve_pair hnot h2)
  have hr2 : solveRule acceptRule [toQuery facts] (solverAt (modelOf (tellModules li l lf rels tables)) (n + 2)) [] w2 = .ok w2 [] := by
    have h5 := hcheck.deeper (l.get w2)
    rw [← h4, l.put_get] at h5
    exact rule_rows (r := acceptRule) rfl rfl rfl (solve_pair_none h5)
  refine ⟨w2, ?_, ?_⟩
  · exact intent_rows (n := n + 2) (claim_found hn c) (by intro a ha; rw [List.mem_singleton.1 ha]; rfl) (by decide) (fun db => claim_rules c hr1 hr2 db)
  · rw [text_reply (hstores.congr h4) h3 hrule hl (k := n + 2) m, h4, ← he, hw]

include S in
/-- **C109** A claim whose check succeeds is accepted: the reply is the text for "understand", the facts are stored behind what was stored, and nothing else
has changed. -/
theorem C109_accepted (hn : NoClaims rels tables) {w : W} (c : CanClaim (li.get w)) (he : l.get w = SimpleStore.clear) {facts : Query}
    (hok : (⟨[], facts⟩ : Telling).Ok rels) {known : Query} (hk : Represents (lf.get w) (recordsOf rels known)) {n : Nat}
    (hcheck : Checked li l lf rels tables (n + 1) w facts [[("Atom", toQuery facts)]])
    (hrule : RepliesWith wg "understand" rule) (hl : TextRule rule "understand" text) (m : Nat) :
    ∃ w2 f, (solverAt (modelOf (tellModules li l lf rels tables)) (n + 3)).solve (claimMeaning facts) [] w = .ok w2 (.rows [[]]) ∧
      generateOutput (solverAt (modelOf (tellModules li l lf rels tables)) (n + 3)) wg l (m + 1) w2 = .ok (lf.put f w) (.str (String.ofList text)) ∧
      Represents f (recordsOf rels (known ++ facts)) := by
  have hw : l.put (l.get w) w = w := l.put_get w
  have hc1 := hcheck (l.get w)
  have hc2 := hcheck.deeper (l.get w)
  rw [hw] at hc1 hc2
  have hnot : (solverAt (modelOf (tellModules li l lf rels tables)) (n + 2)).solve (.list [.tuple [.str "not", .list [checkClaim]]])
      [("Atom", toQuery facts)] w = .ok w (.rows []) := by
    have := C13_not (tellModules li l lf rels tables) w (n := n + 1) (b := [("Atom", toQuery facts)]) (a := .list [checkClaim]) (body := .list [checkClaim]) (not_here S hn c) rfl
    rw [hc1] at this
    exact this
  have hr1 := rule_rows (r := refuseRule) rfl rfl rfl (solve_pair_none (as := [storeType "impossible"]) hnot)
  obtain ⟨f, hf⟩ := storeAll_put lf rels [("Atom", toQuery facts)] facts w
  have hrep := storeAll_represents lf rels [("Atom", toQuery facts)] facts w hk
  have hfill : ∀ a ∈ facts, a.2.map (bindVars [("Atom", toQuery facts)]) = a.2 := by
    intro a ha
    obtain ⟨cs, _, _, h3⟩ := hok.facts a ha
    refine (List.map_congr_left (g := id) fun v hv => ?_).trans (List.map_id _)
    have := bindVars_told (b := []) (b' := [("Atom", toQuery facts)]) (h3 v hv).1 (h3 v hv).2
    rw [List.nil_append] at this
    rw [this]
    cases v <;> rfl
  have hlog : (facts.map fun a => (⟨a.1, (rels.get a.1).getD [], a.2.map (bindVars [("Atom", toQuery facts)])⟩ : LogRecord)) = recordsOf rels facts :=
    List.map_congr_left fun a ha => by rw [hfill a ha]
  rw [hlog, ← recordsOf_append, hf, lf.get_put] at hrep
  have hstore := S.storeVar (w := w) (n := n) (x := "Atom") (b := [("Atom", toQuery facts)]) (facts := facts) c.free rfl (fun a ha => by
    obtain ⟨cs, h1, _⟩ := hok.facts a ha
    exact (Dict.has_iff _ _).2 ⟨_, h1⟩)
  rw [hf] at hstore
  have hclear : l.put SimpleStore.clear (lf.put f w) = lf.put f w := by rw [S.apart, ← he, l.put_get]
  have hempty : l.get (lf.put f w) = SimpleStore.clear := by rw [← hclear, l.get_put]
  have hstores := S.stores (w := lf.put f w) (by rw [S.keepF]; exact c.free)
  obtain ⟨w2, h2, h3, h4⟩ := stores_run hstores (atoms := [("output_type", [.str "understand"])]) (by
    intro a ha; simp at ha; subst ha; decide +kernel) [("Atom", toQuery facts)] hempty n
  have hr2 := rule_rows (r := acceptRule) rfl rfl rfl (solve_one_then hc2 (solve_pair hstore h2))
  refine ⟨w2, f, ?_, ?_, hrep⟩
  · exact intent_rows (n := n + 2) (claim_found hn c) (by intro a ha; rw [List.mem_singleton.1 ha]; rfl) (by decide) (fun db => claim_rules c hr1 hr2 db)
  · rw [text_reply (hstores.congr h4) h3 hrule hl (k := n + 2) m, h4, hclear]

end

/-! ## A case -/

namespace Ex

/-- `check_claim(Atom) :- destructure(Atom, 'parent', A, B), not(parent(B, A)).` (in the form of `tests/integration/sir/inferences.pl:54`) -/
def noCircle : Rule :=
  ⟨[.str "check_claim", .var "Atom"], .list [.tuple [.str "destructure", .var "Atom", .str "parent", .var "A", .var "B"],
    .tuple [.str "not", .list [.tuple [.str "parent", .var "B", .var "A"]]]]⟩

/-- An inference module with the rules for claims, an empty output buffer and an empty memory module. -/
def claimer : Listener :=
  ({ relations := [("learn_rule", .learnRule), ("intent_claim", .handleRule), ("check_claim", .handleRule)]
     rules := [("intent_claim", [refuseRule, acceptRule]), ("check_claim", [noCircle])] }, SimpleStore.clear, SimpleStore.clear)

theorem claimer_inserted : insertAll [refuseRule, acceptRule, noCircle] InfState.init = .ok (listenerInf.get claimer) := by decide +kernel

theorem claimer_can : CanClaim (listenerInf.get claimer) := by
  refine ⟨rfl, rfl, ?_, rfl⟩
  rintro p (rfl | rfl | h)
  · rfl
  · rfl
  · have : p ≠ "learn_rule" ∧ p ≠ "intent_claim" ∧ p ≠ "check_claim" := by
      refine ⟨?_, ?_, ?_⟩ <;> rintro rfl <;> revert h <;> decide
    simp [listenerInf, claimer, Dict.get, this.1.symm, this.2.1.symm, this.2.2.symm]

theorem claimer_apart : NoClaims listenerRels [family] := by
  refine ⟨rfl, fun db hdb => ?_⟩
  rw [List.mem_singleton.1 hdb]
  exact ⟨rfl, rfl⟩

/-- `ann` is a parent of `bob` in the table. -/
theorem claimer_refuses : Checked listenerInf listenerOut listenerFacts listenerRels [family] 5 claimer [("parent", [.str "bob", .str "ann"])] [] := by
  intro u
  rfl

theorem claimer_accepts : Checked listenerInf listenerOut listenerFacts listenerRels [family] 5 claimer [("parent", [.str "dan", .str "eve"])]
    [[("Atom", toQuery [("parent", [.str "dan", .str "eve"])])]] := by
  intro u
  rfl

/-- Texts for the two types of reply (`tests/integration/sir/write_grammar.py:9-12,41-44`). -/
def claimWrite (H : Constituent → List Constituent → Nat) : Grammar WriteSem :=
  [(['s'], [(0, [sayRule H "understand" "I understand".toList, sayRule H "impossible" "The above statement is impossible".toList])])]

theorem claimWrite_rules (H : Constituent → List Constituent → Nat) :
    RepliesWith (claimWrite H) "impossible" (sayRule H "impossible" "The above statement is impossible".toList) ∧
    RepliesWith (claimWrite H) "understand" (sayRule H "understand" "I understand".toList) := by
  refine ⟨⟨[_], _, rfl, ?_⟩, ⟨[], _, rfl, by simp⟩⟩
  intro r hr
  rw [List.mem_singleton.1 hr]
  exact ⟨_, _, by decide, rfl⟩

theorem claim_ok : (⟨[], [("parent", [.str "dan", .str "eve"])]⟩ : Telling).Ok listenerRels := by
  refine ⟨by simp, by simp, by simp, fun a ha => ?_⟩
  rw [List.mem_singleton.1 ha]
  refine ⟨["parent", "child"], rfl, rfl, ?_⟩
  simp [FlatValue, fillVar, Plain, Value.isVar, legal]

/-- "bob is a parent of ann" is impossible. -/
example (H : Constituent → List Constituent → Nat) (m : Nat) :
    ∃ w2, (solverAt (modelOf (tellModules listenerInf listenerOut listenerFacts listenerRels [family])) 7).solve
        (claimMeaning [("parent", [.str "bob", .str "ann"])]) [] claimer = .ok w2 (.rows [[]]) ∧
      generateOutput (solverAt (modelOf (tellModules listenerInf listenerOut listenerFacts listenerRels [family])) 7) (claimWrite H) listenerOut (m + 1) w2 =
        .ok claimer (.str (String.ofList "The above statement is impossible".toList)) :=
  C109_refused listener_system claimer_apart claimer_can rfl claimer_refuses (claimWrite_rules H).1 ⟨rfl, rfl, by rintro f ⟨a, h1, h2⟩; cases h1; cases h2⟩ m

/-- "dan is a parent of eve" is understood. -/
example (H : Constituent → List Constituent → Nat) (m : Nat) :
    ∃ w2 f, (solverAt (modelOf (tellModules listenerInf listenerOut listenerFacts listenerRels [family])) 7).solve
        (claimMeaning [("parent", [.str "dan", .str "eve"])]) [] claimer = .ok w2 (.rows [[]]) ∧
      generateOutput (solverAt (modelOf (tellModules listenerInf listenerOut listenerFacts listenerRels [family])) 7) (claimWrite H) listenerOut (m + 1) w2 =
        .ok (listenerFacts.put f claimer) (.str (String.ofList "I understand".toList)) ∧
      Represents f (recordsOf listenerRels ([] ++ [("parent", [.str "dan", .str "eve"])])) :=
  C109_accepted listener_system claimer_apart claimer_can rfl claim_ok nothing_known.2 claimer_accepts (claimWrite_rules H).2 ⟨rfl, rfl, by rintro f ⟨a, h1, h2⟩; cases h1; cases h2⟩ m

/-- What is asked of the inference module, and what is in the output buffer and the memory module afterwards. -/
def afterClaim (s : InfState) (facts : Query) : Option (SimpleStore × SimpleStore) :=
  match (solverAt (modelOf (tellModules listenerInf listenerOut listenerFacts listenerRels [family])) 7).solve (claimMeaning facts) [] (listenerInf.put s claimer) with
  | .ok w _ => some w.2
  | _ => none

/-- The order of the two rules matters (`tests/integration/sir/intents.pl:59`): the other way around, a claim that is only impossible once it is stored is
stored, and has both replies. -/
theorem C109_order :
    afterClaim claimer.1 [("parent", [.str "gus", .str "gus"])] =
      some ([("output_type", [[("type", .str "understand")]])], [("parent", [[("parent", .str "gus"), ("child", .str "gus")]])]) ∧
    afterClaim { claimer.1 with rules := [("intent_claim", [acceptRule, refuseRule]), ("check_claim", [noCircle])] } [("parent", [.str "gus", .str "gus"])] =
      some ([("output_type", [[("type", .str "understand")], [("type", .str "impossible")]])], [("parent", [[("parent", .str "gus"), ("child", .str "gus")]])]) := by
  decide +kernel

/-- `destructure` looks at the first fact of a claim only: a second fact that is impossible is stored with the first. -/
theorem C109_first_only :
    afterClaim claimer.1 [("parent", [.str "dan", .str "eve"]), ("parent", [.str "bob", .str "ann"])] =
      some ([("output_type", [[("type", .str "understand")]])],
        [("parent", [[("parent", .str "dan"), ("child", .str "eve")], [("parent", .str "bob"), ("child", .str "ann")]])]) := by
  decide +kernel

/-- A claim about another relation does not match the structure, but `destructure` succeeds all the same and leaves the variables unbound: the claim is
refused because anyone has a parent. -/
theorem C109_other_relation :
    afterClaim claimer.1 [("ancestor", [.str "ann", .str "zed"])] = some ([("output_type", [[("type", .str "impossible")]])], SimpleStore.clear) := by
  decide +kernel

end Ex

end Verif

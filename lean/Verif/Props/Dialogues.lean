import Verif.Props.Telling

/-!
# C108: sessions in which rules are taught and facts are told
-/

namespace Verif

variable {W : Type}

/-! ## Specification -/

/-- The parts of the system have nothing to do with each other, and the tables and what is told are not about teaching, telling and replying. -/
structure Dialogue (li : Lens W InfState) (l lf : Lens W SimpleStore) (rels : Dict (List String)) (tables : List (Dict (List (List Value)))) : Prop where
  apart : ∀ w u f, l.put u (lf.put f w) = lf.put f (l.put u w)
  apartL : ∀ w u s, l.put u (li.put s w) = li.put s (l.put u w)
  apartF : ∀ w f s, lf.put f (li.put s w) = li.put s (lf.put f w)
  reserved : NotReserved W rels
  columns : ∀ p cs, rels.get p = some cs → cs.Nodup
  free : ∀ p, Taken p ∨ p = "learn_rule" ∨ p = "sentence_learn" → rels.get p = none ∧ ∀ db ∈ tables, db.get p = none

/-- A turn of a session: a sentence that teaches a rule, a sentence that tells facts, or a question. -/
inductive DialogueTurn where
  | teach (t : Teaching)
  | tell (t : Telling)
  | ask (q : Query) (b : Binding)

/-- The meaning of a turn with the binding it is solved with. -/
def DialogueTurn.query : DialogueTurn → Value × Binding
  | .teach t => (t.meaning, [])
  | .tell t => (t.meaning, [])
  | .ask q b => (toQuery q, b)

/-- The turns one after the other. For a sentence that teaches or tells, the meaning is solved and a reply is generated. -/
def runDialogue (solver : SolverApi W) (wg : Grammar WriteSem) (l : Lens W SimpleStore) (m : Nat) : List DialogueTurn → M W (List TurnOut)
  | [] => pure []
  | .ask q b :: ts => do
    let o ← solver.solve (toQuery q) b
    let outs ← runDialogue solver wg l m ts
    pure (.answers o :: outs)
  | t :: ts => do
    let _ ← solver.solve t.query.1 t.query.2
    let reply ← generateOutput solver wg l m
    let outs ← runDialogue solver wg l m ts
    pure (.reply reply :: outs)

/-- The rules that are taught, and the facts that are told (specification). -/
def rulesIn : List DialogueTurn → List HornRule
  | [] => []
  | .teach t :: ts => t.rule.filled t.given :: rulesIn ts
  | .tell _ :: ts => rulesIn ts
  | .ask _ _ :: ts => rulesIn ts

@[inherit_doc rulesIn]
def factsIn : List DialogueTurn → Query
  | [] => []
  | .teach _ :: ts => factsIn ts
  | .tell t :: ts => t.told ++ factsIn ts
  | .ask _ _ :: ts => factsIn ts

/-- What the turns give is right (specification): a sentence that teaches or tells gets the text as reply, and a question exactly the answers that follow
from the tables, the rules of the start, and what was taught and told before; each once. -/
def RightDialogue (tables : List (Dict (List (List Value)))) (text : String) : List HornRule → Query → List DialogueTurn → List TurnOut → Prop
  | _, _, [], [] => True
  | rs, known, .teach t :: ts, .reply v :: os => v = .str text ∧ RightDialogue tables text (rs ++ [t.rule.filled t.given]) known ts os
  | rs, known, .tell t :: ts, .reply v :: os => v = .str text ∧ RightDialogue tables text rs (known ++ t.told) ts os
  | rs, known, .ask q b :: ts, .answers (.rows bs) :: os =>
    SoundB (toldProgram tables known rs) q b bs ∧ NoDup bs ∧ (HeadsBound rs → CompleteB (toldProgram tables known rs) q b bs) ∧
      RightDialogue tables text rs known ts os
  | _, _, _, _ => False

/-- A question can be asked about the tables, the relations of the memory module and the rules (specification). -/
def QuestionOk (W : Type) (rels : Dict (List String)) (tables : List (Dict (List (List Value)))) (rs : List HornRule) (q : Query) (b : Binding) : Prop :=
  ∃ ar, ProgramOk W ar (tables ++ [memoryDb rels []]) rs ∧ (∀ p k cs, rels.get p = some cs → ar p = some k → cs.length = k) ∧
    (∀ p, Taken p ∨ p = "sentence_learn" → ar p = none) ∧ QueryOk ar q ∧ PlainB b

/-- The turns make sense: questions are about predicates that are known when they are asked (specification). -/
def SensibleDialogue (W : Type) (rels : Dict (List String)) (tables : List (Dict (List (List Value)))) : List HornRule → List DialogueTurn → Prop
  | _, [] => True
  | rs, .teach t :: ts => (t.Ok ∧ t.rule.pred ≠ "sentence_tell") ∧ SensibleDialogue W rels tables (rs ++ [t.rule.filled t.given]) ts
  | rs, .tell t :: ts => t.Ok rels ∧ SensibleDialogue W rels tables rs ts
  | rs, .ask q b :: ts => QuestionOk W rels tables rs q b ∧ SensibleDialogue W rels tables rs ts

/-- The rules are not about teaching, telling and replying. -/
def OtherRules (rs : List HornRule) : Prop := ∀ r ∈ rs, ¬ Busy r.pred ∧ r.pred ≠ "sentence_tell"

/-! ## The intents -/

theorem insertAll_only {rules : List Rule} {s : InfState} (hins : insertAll rules InfState.init = .ok s) {p : String} {r : Rule}
    (h : rules.filter (fun r => decide (r.pred = some p)) = [r]) : s.relations.get p = some .handleRule ∧ s.rules.get p = some [r] := by
  obtain ⟨h1, h2, h3⟩ := insertAll_rules hins p
  have hm : r ∈ rules ∧ r.pred = some p := by
    have : r ∈ rules.filter (fun r => decide (r.pred = some p)) := by rw [h]; simp
    simpa using this
  refine ⟨by rw [h3, if_pos ⟨r, hm⟩], ?_⟩
  obtain ⟨x, hx⟩ := (Dict.has_iff _ _).1 (h2.2 (.inr ⟨r, hm⟩))
  rw [hx] at h1 ⊢
  simp only [Option.getD_some, InfState.init, Dict.get_nil, Option.getD_none, List.nil_append] at h1
  rw [h1, h]

theorem insertAll_not {rules : List Rule} {s : InfState} (hins : insertAll rules InfState.init = .ok s) {p : String}
    (h : ∀ r ∈ rules, r.pred ≠ some p) : s.relations.get p = InfState.init.relations.get p := by
  obtain ⟨_, _, h3⟩ := insertAll_rules hins p
  rw [h3, if_neg]
  rintro ⟨r, hr, e⟩
  exact h r hr e

theorem dialogue_intents {rs : List HornRule} {s : InfState} (hrs : OtherRules rs)
    (hins : insertAll (tellIntent :: learnIntent :: rs.map HornRule.toRule) InfState.init = .ok s) : CanLearn s ∧ CanTell s := by
  have hno : ∀ p, Busy p ∨ p = "sentence_tell" → ∀ r ∈ rs.map HornRule.toRule, r.pred ≠ some p := by
    rintro p hp r hr e
    obtain ⟨r', hr', rfl⟩ := List.mem_map.1 hr
    rw [toRule_pred] at e
    have e := Option.some.inj e
    rcases hp with hp | hp
    · exact (hrs r' hr').1 (e ▸ hp)
    · exact (hrs r' hr').2 (e.trans hp)
  have h1 : tellIntent.pred = some "sentence_tell" := rfl
  have h2 : learnIntent.pred = some "sentence_learn" := rfl
  have ht := insertAll_only hins (p := "sentence_tell") (r := tellIntent) (by
    rw [List.filter_cons, if_pos (by simp [h1]), List.filter_cons, if_neg (by simp [h2]), List.filter_eq_nil_iff.2]
    intro r hr
    simpa using hno "sentence_tell" (.inr rfl) r hr)
  have hl := insertAll_only hins (p := "sentence_learn") (r := learnIntent) (by
    rw [List.filter_cons, if_neg (by simp [h1]), List.filter_cons, if_pos (by simp [h2]), List.filter_eq_nil_iff.2]
    intro r hr
    simpa using hno "sentence_learn" (.inl (.inr (.inr (.inl rfl)))) r hr)
  have hother : ∀ p, Busy p → p ≠ "sentence_learn" → p ≠ "sentence_tell" → s.relations.get p = InfState.init.relations.get p := by
    intro p hp n1 n2
    refine insertAll_not hins fun r hr => ?_
    rcases List.mem_cons.1 hr with rfl | hr
    · rw [h1]; simpa using n2.symm
    · rcases List.mem_cons.1 hr with rfl | hr
      · rw [h2]; simpa using n1.symm
      · exact hno p (.inl hp) r hr
  have hfree : ∀ p, p = "let" ∨ p = "store" ∨ outputRelations.has p = true → s.relations.get p = none := by
    intro p hp
    have hb : Busy p := by
      rcases hp with rfl | rfl | hp
      · exact .inl rfl
      · exact .inr (.inr (.inr (.inl rfl)))
      · exact .inr (.inr (.inr (.inr hp)))
    have hne : p ≠ "sentence_learn" ∧ p ≠ "learn_rule" ∧ p ≠ "sentence_tell" := by
      refine ⟨?_, ?_, ?_⟩ <;> rintro rfl <;> simp [outputRelations, Dict.has, Dict.get] at hp
    rw [hother p hb hne.1 hne.2.2]
    simp [InfState.init, Dict.get, hne.2.1.symm]
  exact ⟨⟨hother _ (.inr (.inl rfl)) (by decide) (by decide), hl.1, hl.2, hfree⟩, ⟨ht.1, ht.2, hfree⟩⟩

section
variable {li : Lens W InfState} {l lf : Lens W SimpleStore} {rels : Dict (List String)} {tables : List (Dict (List (List Value)))}
  (D : Dialogue li l lf rels tables)

theorem lens_keeps {S T : Type} {l1 : Lens W S} {l2 : Lens W T} (h : ∀ w u s, l1.put u (l2.put s w) = l2.put s (l1.put u w)) (w : W) (u : S) :
    l2.get (l1.put u w) = l2.get w := by
  have := congrArg l2.get (h w u (l2.get w))
  rwa [l2.put_get, l2.get_put] at this

include D in
theorem Dialogue.system {rs : List HornRule} (hrs : OtherRules rs) {ar : String → Option Nat} (hok : ProgramOk W ar (tables ++ [memoryDb rels []]) rs)
    (harity : ∀ p k cs, rels.get p = some cs → ar p = some k → cs.length = k) (har : ∀ p, Taken p → ar p = none) :
    TellSystem li l lf rels tables rs ar := by
  refine ⟨D.apart, lens_keeps D.apartL, lens_keeps D.apartF, D.reserved, D.columns, fun p hp => ?_, hok, harity⟩
  refine ⟨(D.free p (.inl hp)).1, (D.free p (.inl hp)).2, fun r hr e => ?_, har p hp⟩
  obtain ⟨h1, h2⟩ := hrs r hr
  rcases hp with hp | hp | hp | hp
  · exact h1 (.inl (e.trans hp))
  · exact h2 (e.trans hp)
  · exact h1 (.inr (.inr (.inr (.inl (e.trans hp)))))
  · exact h1 (.inr (.inr (.inr (.inr (e ▸ hp)))))

include D in
theorem Dialogue.bare : TellSystem li l lf rels tables [] (fun _ => none) :=
  D.system (by simp [OtherRules]) ⟨⟨rfl, rfl, fun _ _ _ => rfl⟩, by simp, by simp, by simp⟩ (by simp) (by simp)

include D in
theorem Dialogue.teachable (w : W) : Teachable li l (tables.map (tableModule W) ++ [memoryModule lf rels]) [outputBuffer l] w := by
  refine ⟨fun u s => D.apartL w u s, fun u s p hp m hm => ?_, fun u s p cs hp => ?_⟩
  · have hf : rels.get p = none ∧ ∀ db ∈ tables, db.get p = none := by
      refine D.free p ?_
      rcases hp with rfl | rfl | rfl | rfl
      · exact .inl (.inl rfl)
      · exact .inr (.inl rfl)
      · exact .inr (.inr rfl)
      · exact .inl (.inr (.inr (.inl rfl)))
    have ho : outputRelations.get p = none := by rcases hp with rfl | rfl | rfl | rfl <;> decide +kernel
    simp only [List.mem_append, List.mem_map, List.mem_cons, List.not_mem_nil, or_false] at hm
    rcases hm with (⟨db, hdb, rfl⟩ | rfl) | rfl
    · simp [tableModule, hf.2 db hdb]
    · simp [memoryModule, hf.1]
    · simp [outputBuffer, memoryModule, ho]
  · obtain ⟨h1, h2⟩ := D.free p (.inl (.inr (.inr (.inr ((Dict.has_iff _ _).2 ⟨_, hp⟩)))))
    have htab : findRelations (tables.map (tableModule W)) (l.put u (li.put s w)) p = [] := by
      simp only [findRelations, List.filterMap_eq_nil_iff, List.mem_map]
      rintro m ⟨db, hdb, rfl⟩
      simp [tableModule, h2 db hdb]
    simp only [findRelations] at htab
    simp [findRelations, List.filterMap_append, htab, memoryModule, h1, outputBuffer, hp]

/-! ## Sessions -/

variable {wg : Grammar WriteSem} {rule : WRule} {text : Str}

include D in
theorem dialogue_good (hrule : RepliesWith wg "ok" rule) (hl : TextRule rule "ok" text) (n m : Nat) (ts : List DialogueTurn) :
    ∀ {rs : List HornRule} {known : Query} {w : W}, l.get w = SimpleStore.clear → OtherRules rs →
    insertAll (tellIntent :: learnIntent :: rs.map HornRule.toRule) InfState.init = .ok (li.get w) →
    KnownOk rels known → Represents (lf.get w) (recordsOf rels known) → SensibleDialogue W rels tables rs ts →
    runDialogue (solverAt (modelOf (tellModules li l lf rels tables)) (n + 3)) wg l (m + 1) ts w = .oof ∨
    ∃ outs s f, runDialogue (solverAt (modelOf (tellModules li l lf rels tables)) (n + 3)) wg l (m + 1) ts w = .ok (li.put s (lf.put f w)) outs ∧
      RightDialogue tables (String.ofList text) rs known ts outs ∧ Represents f (recordsOf rels (known ++ factsIn ts)) ∧
      insertAll (tellIntent :: learnIntent :: (rs ++ rulesIn ts).map HornRule.toRule) InfState.init = .ok s := by
  induction ts with
  | nil =>
    intro rs known w he hrs hins hko hk hts
    exact .inr ⟨[], li.get w, lf.get w, by rw [lf.put_get, li.put_get]; rfl, trivial, by simpa [factsIn] using hk, by simpa [rulesIn] using hins⟩
  | cons t ts ih =>
    intro rs known w he hrs hins hko hk hts
    obtain ⟨c1, c2⟩ := dialogue_intents hrs hins
    cases t with
    | teach t =>
      obtain ⟨⟨hok, hne⟩, hts'⟩ := hts
      obtain ⟨s1, w2, h1, h2, h3⟩ := teach_one (likeInference li) (D.teachable w) c1 he hok hrule hl n m
      have hins1 : insertAll (tellIntent :: learnIntent :: (rs ++ [t.rule.filled t.given]).map HornRule.toRule) InfState.init = .ok (li.get (li.put s1 w)) := by
        rw [li.get_put, List.map_append, ← List.cons_append, ← List.cons_append, insertAll_append hins]
        simp only [List.map_cons, List.map_nil, insertAll, h1]
      have hclear : l.put SimpleStore.clear (li.put s1 w) = li.put s1 w := by rw [D.apartL, ← he, l.put_get]
      simp only [runDialogue, DialogueTurn.query]
      rw [M.bind_ok (show (solverAt (modelOf (tellModules li l lf rels tables)) (n + 3)).solve t.meaning [] w = _ from h2), M.bind_ok (show generateOutput (solverAt (modelOf (tellModules li l lf rels tables)) (n + 3)) wg l (m + 1) w2 = _ from h3)]
      rcases ih (w := li.put s1 w) (rs := rs ++ [t.rule.filled t.given]) (by rw [← hclear, l.get_put]) (fun r hr => by
        rcases List.mem_append.1 hr with hr | hr
        · exact hrs r hr
        · rw [List.mem_singleton.1 hr]; exact ⟨hok.idle, hne⟩) hins1 hko
          (by rw [lens_keeps (l1 := li) (l2 := lf) (fun w s f => (D.apartF w f s).symm)]; exact hk) hts' with h4 | ⟨outs, s, f, h4, h5, h6, h7⟩
      · left; rw [M.bind_run, h4]
      · right
        rw [M.bind_ok h4, D.apartF, li.put_put]
        exact ⟨_, s, f, rfl, ⟨rfl, h5⟩, by simpa [factsIn] using h6, by simpa [rulesIn] using h7⟩
    | tell t =>
      obtain ⟨hok, hts'⟩ := hts
      obtain ⟨f1, w2, h1, h2, h3⟩ := tell_one D.bare c2 he hk hok hrule hl n m
      have hclear : l.put SimpleStore.clear (lf.put f1 w) = lf.put f1 w := by rw [D.apart, ← he, l.put_get]
      simp only [runDialogue, DialogueTurn.query]
      rw [M.bind_ok h1, M.bind_ok h2]
      rcases ih (w := lf.put f1 w) (by rw [← hclear, l.get_put]) hrs (by rw [D.bare.keepF]; exact hins) (told_ok hok hko) (by rw [lf.get_put]; exact h3) hts'
        with h4 | ⟨outs, s, f, h4, h5, h6, h7⟩
      · left; rw [M.bind_run, h4]
      · right
        rw [M.bind_ok h4, lf.put_put]
        exact ⟨_, s, f, rfl, ⟨rfl, h5⟩, by simpa [factsIn] using h6, by simpa [rulesIn] using h7⟩
    | ask q b =>
      obtain ⟨⟨ar, a1, a2, a3, a4, a5⟩, hts'⟩ := hts
      have S := D.system hrs a1 a2 (fun p hp => a3 p (.inl hp))
      simp only [runDialogue]
      rcases ask_with S [tellIntent, learnIntent] (fun e he => by
          simp only [List.mem_cons, List.not_mem_nil, or_false] at he
          rcases he with rfl | rfl
          · exact ⟨by decide, tellIntent_apart S⟩
          · refine ⟨by decide, fun p k hp e => ?_⟩
            have : p = "sentence_learn" := (Option.some.inj e).symm
            subst this; rw [a3 _ (.inr rfl)] at hp; simp at hp)
        (fun e he => by
          simp only [List.mem_cons, List.not_mem_nil, or_false] at he
          rcases he with rfl | rfl
          · exact tellIntent_bound
          · exact learnIntent_bound) hins hko hk a4 a5 (n + 3) with h1 | ⟨bs, h1, h2⟩
      · left; rw [M.bind_run, h1]
      · rw [M.bind_ok h1]
        rcases ih he hrs hins hko hk hts' with h4 | ⟨outs, s, f, h4, h5, h6, h7⟩
        · left; rw [M.bind_run, h4]
        · right
          rw [M.bind_ok h4]
          exact ⟨_, s, f, rfl, ⟨h2.1, h2.2.1, h2.2.2, h5⟩, by simpa [factsIn] using h6, by simpa [rulesIn] using h7⟩

include D in
/-- **C108** A session of sentences that teach rules, sentences that tell facts, and questions, in any order: each sentence that teaches or tells gets the
text for "ok", and each question exactly the answers that follow from the tables, the rules and facts of the start, and what was taught and told before.
At the end the inference module holds the intents, the rules of the start and the taught rules, and the memory module the facts of the start and the told
facts, in order; nothing else has changed. -/
theorem C108_session {w : W} (he : l.get w = SimpleStore.clear) {rs : List HornRule} (hrs : OtherRules rs)
    (hins : insertAll (tellIntent :: learnIntent :: rs.map HornRule.toRule) InfState.init = .ok (li.get w))
    {known : Query} (hko : KnownOk rels known) (hk : Represents (lf.get w) (recordsOf rels known)) {ts : List DialogueTurn}
    (hts : SensibleDialogue W rels tables rs ts) (hrule : RepliesWith wg "ok" rule) (hl : TextRule rule "ok" text) {n m : Nat} {w' : W} {outs : List TurnOut}
    (h : runDialogue (solverAt (modelOf (tellModules li l lf rels tables)) (n + 3)) wg l (m + 1) ts w = .ok w' outs) :
    RightDialogue tables (String.ofList text) rs known ts outs ∧ ∃ s f, w' = li.put s (lf.put f w) ∧
      Represents f (recordsOf rels (known ++ factsIn ts)) ∧
      insertAll (tellIntent :: learnIntent :: (rs ++ rulesIn ts).map HornRule.toRule) InfState.init = .ok s := by
  rcases dialogue_good D hrule hl n m ts he hrs hins hko hk hts with h1 | ⟨outs', s, f, h1, h2, h3, h4⟩
  · rw [h] at h1; simp at h1
  · rw [h] at h1
    simp only [Res.ok.injEq] at h1
    obtain ⟨rfl, rfl⟩ := h1
    exact ⟨h2, s, f, rfl, h3, h4⟩

include D in
/-- **C108** No turn of such a session raises an exception. -/
theorem C108_no_exception {w : W} (he : l.get w = SimpleStore.clear) {rs : List HornRule} (hrs : OtherRules rs)
    (hins : insertAll (tellIntent :: learnIntent :: rs.map HornRule.toRule) InfState.init = .ok (li.get w))
    {known : Query} (hko : KnownOk rels known) (hk : Represents (lf.get w) (recordsOf rels known)) {ts : List DialogueTurn}
    (hts : SensibleDialogue W rels tables rs ts) (hrule : RepliesWith wg "ok" rule) (hl : TextRule rule "ok" text) (n m : Nat) (w' : W) (e : Err) :
    runDialogue (solverAt (modelOf (tellModules li l lf rels tables)) (n + 3)) wg l (m + 1) ts w ≠ .err w' e := by
  rcases dialogue_good D hrule hl n m ts he hrs hins hko hk hts with h1 | ⟨outs', s, f, h1, _⟩ <;> rw [h1] <;> simp

end

namespace Ex

/-- As `listener`, with both intents. -/
def partner : Listener :=
  ({ relations := [("learn_rule", .learnRule), ("sentence_tell", .handleRule), ("sentence_learn", .handleRule), ("ancestor", .handleRule)]
     rules := [("sentence_tell", [tellIntent]), ("sentence_learn", [learnIntent]), ("ancestor", ancestorRules.map HornRule.toRule)] },
   SimpleStore.clear, SimpleStore.clear)

theorem partner_inserted : insertAll (tellIntent :: learnIntent :: ancestorRules.map HornRule.toRule) InfState.init = .ok (listenerInf.get partner) := by
  decide +kernel

theorem partner_dialogue : Dialogue listenerInf listenerOut listenerFacts listenerRels [family] := by
  refine ⟨fun _ _ _ => rfl, fun _ _ _ => rfl, fun _ _ _ => rfl, listener_system.reserved, listener_system.columns, fun p hp => ?_⟩
  have hne : p ≠ "parent" ∧ p ≠ "ancestor" := by
    rcases hp with hp | rfl | rfl
    · exact taken_ne hp
    · decide
    · decide
  refine ⟨by simp [listenerRels, Dict.get, hne.1.symm, hne.2.symm], fun db hdb => ?_⟩
  rw [List.mem_singleton.1 hdb]
  simp [family, Dict.get, hne.1.symm]

theorem partner_rules : OtherRules ancestorRules := by
  intro r hr
  refine ⟨pupil_free r hr, ?_⟩
  simp only [ancestorRules, List.mem_cons, List.not_mem_nil, or_false] at hr
  rcases hr with rfl | rfl <;> decide

/-- Ask, tell, teach, tell again, ask. -/
def partnerTurns : List DialogueTurn :=
  [.ask annQuery [], .tell tellEve, .teach tellReversed, .tell ⟨[], [("parent", [.str "eve", .str "fay"])]⟩, .ask annQuery []]

theorem partner_question {rs : List HornRule} (hex : ∃ r ∈ rs, r.pred = "ancestor")
    (h : ∀ r ∈ rs, familyAr r.pred = some r.args.length ∧ ArgsOk r.args ∧ QueryOk familyAr r.body) :
    QuestionOk Listener listenerRels [family] rs annQuery [] := by
  refine ⟨familyAr, ⟨listener_system.ok.notReserved, fun p k hp => ?_, listener_system.ok.rowsOk, h⟩, listener_system.arity, fun p hp => ?_, family_query_ok, noBinding⟩
  · rcases (school_ok hex h).defined p k hp with ⟨db, hdb, h1⟩ | h1
    · exact .inl ⟨db, List.mem_append_left _ hdb, h1⟩
    · exact .inr h1
  · rcases hp with hp | rfl
    · exact (listener_system.free p hp).2.2.2
    · decide

theorem partner_sensible : SensibleDialogue Listener listenerRels [family] ancestorRules partnerTurns := by
  refine ⟨partner_question ⟨_, List.mem_cons_self, rfl⟩ (fun r hr => school_rules r (List.mem_append_left _ hr)), tellEve_ok, ⟨tellReversed_ok, by decide⟩, ?_,
    partner_question ⟨_, List.mem_cons_self, rfl⟩ (fun r hr => school_rules r ?_), trivial⟩
  · refine ⟨by simp, by simp, by simp, fun a ha => ?_⟩
    rw [List.mem_singleton.1 ha]
    refine ⟨["parent", "child"], rfl, rfl, ?_⟩
    simp [FlatValue, fillVar, Plain, Value.isVar, legal]
  · rcases List.mem_append.1 hr with hr | hr
    · exact List.mem_append_left _ hr
    · refine List.mem_append_right _ ?_
      rw [session_taught, List.mem_singleton.1 hr]
      simp [tellReversed, reversed, HornRule.filled, fillVar, Dict.get]

theorem partner_known : Represents (listenerFacts.get partner) (recordsOf listenerRels []) := by intro t; rfl

/-- What the turns give. -/
theorem partner_run : runDialogue (solverAt (modelOf (tellModules listenerInf listenerOut listenerFacts listenerRels [family])) (7 + 3))
      (homeWrite (fun _ _ => 0) (fun _ => .ok (.str ""))) listenerOut (0 + 1) partnerTurns partner =
    .ok (listenerInf.put ⟨partner.1.relations, [("sentence_tell", [tellIntent]), ("sentence_learn", [learnIntent]),
        ("ancestor", (ancestorRules ++ rulesIn partnerTurns).map HornRule.toRule)]⟩
      (listenerFacts.put [("parent", [[("parent", .str "dan"), ("child", .str "eve")], [("parent", .str "eve"), ("child", .str "fay")]]),
        ("ancestor", [[("old", .str "ann"), ("young", .str "zed")]])] partner))
      [.answers (.rows [[("W", .str "bob")], [("W", .str "cas")], [("W", .str "dan")]]), .reply (.str "OK"), .reply (.str "OK"), .reply (.str "OK"),
       .answers (.rows [[("W", .str "zed")], [("W", .str "bob")], [("W", .str "cas")], [("W", .str "dan")], [("W", .str "eve")], [("W", .str "fay")]])] := by
  decide +kernel

variable (H : Constituent → List Constituent → Nat) (f : List Value → Except Err Value)

/-- The hypotheses of the theorems are met by it. -/
example := C108_session partner_dialogue rfl partner_rules partner_inserted nothing_known.1 partner_known partner_sensible (pupil_reply _ _)
  ((say_rules _ (fun _ => .ok (.str ""))).1 "ok" _) partner_run
example := C108_no_exception partner_dialogue rfl partner_rules partner_inserted nothing_known.1 partner_known partner_sensible (pupil_reply H f)
  ((say_rules H f).1 "ok" _) 4 2

end Ex

end Verif

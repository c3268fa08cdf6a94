import Verif.Props.Knowledge

/-!
# C104: teaching rules between questions

A session with a solver in which rules are learned (`learn_rule`) and questions are asked, in any order.
-/

namespace Verif

variable {W : Type}

/-! ## Specification -/

/-- The value of a variable that is bound; anything else stays as it is (specification). -/
def fillVar (b : Binding) : Value → Value
  | .var x => (b.get x).getD (.var x)
  | v => v

/-- The rule with the values of the bound variables filled in (specification). -/
def HornRule.filled (b : Binding) (h : HornRule) : HornRule :=
  ⟨h.pred, h.args.map (fillVar b), h.body.map fun a => (a.1, a.2.map (fillVar b))⟩

/-- A step of a session: a question, or a rule that is taught; with the values of variables that are known. -/
inductive Lesson where
  | ask (q : Query) (b : Binding)
  | teach (h : HornRule) (b : Binding)

/-- The query of a step. -/
def Lesson.query : Lesson → Value
  | .ask q _ => toQuery q
  | .teach h _ => .list [.tuple [.str "learn_rule", .tuple (.str h.pred :: h.args), toQuery h.body]]

/-- The binding of a step. -/
def Lesson.binding : Lesson → Binding
  | .ask _ b => b
  | .teach _ b => b

/-- The steps one after the other, with what the solver returns. -/
def runLessons (api : SolverApi W) : List Lesson → M W (List SolOut)
  | [] => pure []
  | l :: ls => do
    let o ← api.solve l.query l.binding
    let os ← runLessons api ls
    pure (o :: os)

/-- The rules taught in a session (specification). -/
def taught : List Lesson → List HornRule
  | [] => []
  | .ask _ _ :: ls => taught ls
  | .teach h b :: ls => h.filled b :: taught ls

/-- What the steps give is right (specification): a question has exactly the answers that follow from the tables, the rules that were there from the
start, and the rules taught before the question; each once. Teaching gives the binding back. -/
def RightOutcomes (tables : List (Dict (List (List Value)))) : List HornRule → List Lesson → List SolOut → Prop
  | _, [], [] => True
  | rs, .ask q b :: ls, .rows bs :: os =>
    SoundB (program tables rs) q b bs ∧ NoDup bs ∧ (HeadsBound rs → CompleteB (program tables rs) q b bs) ∧ RightOutcomes tables rs ls os
  | rs, .teach h b :: ls, .rows bs :: os => bs = [b] ∧ RightOutcomes tables (rs ++ [h.filled b]) ls os
  | _, _, _ => False

/-- The value is not a list and not an atom (specification). -/
def FlatValue : Value → Prop
  | .list _ => False
  | .tuple _ => False
  | _ => True

/-- The arguments of the head and of the atoms of the body are not lists and not atoms (specification). -/
def HornRule.Flat (h : HornRule) : Prop := (∀ v ∈ h.args, FlatValue v) ∧ ∀ a ∈ h.body, ∀ v ∈ a.2, FlatValue v

/-- A model in which rules can be learned: modules with stored rows, and one inference module; only that one has `learn_rule`. `w0` gives the parts of
the world that are not the rules. -/
structure Classroom (W : Type) where
  lens : Lens W InfState
  w0 : W
  before : List (Module W)
  after : List (Module W)
  dbs : List (Dict (List (List Value)))
  dbs' : List (Dict (List (List Value)))
  learns : ∀ s, ∀ m ∈ before ++ after, m.relations (lens.put s w0) "learn_rule" = none

/-- The modules. -/
def Classroom.modules (C : Classroom W) : List (Module W) := modelOf (C.before ++ inferenceModule C.lens :: C.after)

/-- The knowledge base is in order for a question (specification). -/
def Classroom.Ready (C : Classroom W) (rs : List HornRule) (q : Query) (b : Binding) : Prop :=
  ∃ ar, ProgramOk W ar (C.dbs ++ C.dbs') rs ∧ QueryOk ar q ∧ PlainB b ∧
    ∀ s, FactModules ar (C.lens.put s C.w0) C.before C.dbs ∧ FactModules ar (C.lens.put s C.w0) C.after C.dbs'

/-- Questions are about predicates that are known when they are asked, and rules are for predicates that are words and not `learn_rule`
(specification). -/
def Sensible (C : Classroom W) : List HornRule → List Lesson → Prop
  | _, [] => True
  | rs, .ask q b :: ls => C.Ready rs q b ∧ Sensible C rs ls
  | rs, .teach h b :: ls => WordName h.pred ∧ h.pred ≠ "learn_rule" ∧ h.Flat ∧ Sensible C (rs ++ [h.filled b]) ls

/-! ## One step -/

theorem insertAll_append {rs rs' : List Rule} {s s1 : InfState} (h : insertAll rs s = .ok s1) :
    insertAll (rs ++ rs') s = insertAll rs' s1 := by
  induction rs generalizing s with
  | nil => simp only [insertAll, Except.ok.injEq] at h; subst h; rfl
  | cons r rs ih =>
    simp only [insertAll, List.cons_append] at h ⊢
    split at h
    · simp at h
    · exact ih h

theorem bindVars_flat (b : Binding) {v : Value} (h : FlatValue v) :
    bindVars b v = fillVar b v := by
  cases v with
  | var x => simp only [bindVars, fillVar]; cases b.get x <;> rfl
  | list xs => exact h.elim
  | tuple xs => exact h.elim
  | _ => rfl

theorem filled_toRule (b : Binding) {h : HornRule} (hf : h.Flat) :
    (h.filled b).toRule = { head := .str h.pred :: bindVarsList b h.args, body := .list (bindVarsList b (h.body.map toAtom)) } := by
  have e : ∀ vs : List Value, (∀ v ∈ vs, FlatValue v) →
      bindVarsList b vs = vs.map (fillVar b) := by
    intro vs hvs
    rw [bindVarsList_eq_map]
    exact List.map_congr_left fun v hv => bindVars_flat b (hvs v hv)
  simp only [HornRule.toRule, HornRule.filled, toQuery, e h.args hf.1, bindVarsList_eq_map, List.map_map, Rule.mk.injEq, Value.list.injEq, true_and]
  refine List.map_congr_left fun a ha => ?_
  simp only [Function.comp, toAtom, bindVars, bindVarsList, e a.2 (hf.2 a ha)]

theorem learn_step (l : Lens W InfState) {mods : List (Module W)} {w : W}
    (hrel : findRelations mods w "learn_rule" = [{ predicate := "learn_rule", query := learnRule l }])
    {p : String} (args body : List Value) (b : Binding) (n : Nat) {s' : InfState}
    (hs' : insertRule { head := .str p :: bindVarsList b args, body := .list (bindVarsList b body) } (l.get w) = .ok s') :
    (solverAt mods (n + 1)).solve (.list [.tuple [.str "learn_rule", .tuple (.str p :: args), .list body]]) b w
        = .ok (l.put s' w) (.rows [b]) := by
  show solveSingle.go (solverAt mods n) mods b "learn_rule" _ w = _
  have hq : learnRule l [.tuple (.str p :: args), .list body]
      ⟨"learn_rule", [], [.tuple (.str p :: args), .list body], b, solverAt mods n⟩ w
      = .ok (l.put s' w) (.rows [[.none, .none]]) := by
    simp only [learnRule]
    rw [M.bind_run]
    simp only [M.gets_run, bindVarsList, bindVars]
    rw [M.bind_run, hs']
    rfl
  simp only [solveSingle.go, findRelationValues]
  rw [if_neg (by decide), M.bind_run, M.bind_run]
  simp only [M.gets_run, hrel, queryRelations]
  have hdb : dbValues [.tuple (.str p :: args), .list body] b = [.tuple (.str p :: args), .list body] := rfl
  rw [hdb, M.bind_ok hq]
  simp only [M.pure_run, List.map_nil, List.nil_append, dedupRows, List.contains_nil, Bool.false_eq_true, if_false, resultsOf]
  simp [createResults, extendRow, Except.map, M.lift, M.pure]

theorem Classroom.findLearn (C : Classroom W) {rs : List HornRule} {s : InfState} (hins : insertAll (rs.map HornRule.toRule) InfState.init = .ok s)
    (hrs : ∀ r ∈ rs, r.pred ≠ "learn_rule") :
    findRelations C.modules (C.lens.put s C.w0) "learn_rule" = [{ predicate := "learn_rule", query := learnRule C.lens }] := by
  have hnone : ∀ ms : List (Module W), (∀ m ∈ ms, m ∈ C.before ++ C.after) → findRelations ms (C.lens.put s C.w0) "learn_rule" = [] := by
    intro ms hms
    simp only [findRelations, List.filterMap_eq_nil_iff]
    exact fun m hm => C.learns s m (hms m hm)
  have hcore : (coreModule W).relations (C.lens.put s C.w0) "learn_rule" = none := rfl
  have hinf : (inferenceModule C.lens).relations (C.lens.put s C.w0) "learn_rule" = some { predicate := "learn_rule", query := learnRule C.lens } := by
    simp only [inferenceModule, C.lens.get_put]
    rw [(insertAll_rules hins "learn_rule").2.2, if_neg]
    · rfl
    · rintro ⟨r, hr, e⟩
      obtain ⟨r', hr', rfl⟩ := List.mem_map.1 hr
      exact hrs r' hr' (by simpa [toRule_pred] using e)
  have hb := hnone C.before (fun m hm => by simp [hm])
  have ha := hnone C.after (fun m hm => by simp [hm])
  simp only [findRelations] at hb ha
  simp only [Classroom.modules, modelOf, findRelations, List.filterMap_cons, hcore, List.filterMap_append, hinf, hb, ha, List.nil_append]

theorem Classroom.teach_step (C : Classroom W) {rs : List HornRule} {s : InfState} (hins : insertAll (rs.map HornRule.toRule) InfState.init = .ok s)
    (hrs : ∀ r ∈ rs, r.pred ≠ "learn_rule") {h : HornRule} (hw : WordName h.pred) (hf : h.Flat) (b : Binding) (n : Nat) :
    ∃ s', (solverAt C.modules (n + 1)).solve (Lesson.teach h b).query b (C.lens.put s C.w0) = .ok (C.lens.put s' C.w0) (.rows [b]) ∧
      insertAll ((rs ++ [h.filled b]).map HornRule.toRule) InfState.init = .ok s' := by
  obtain ⟨s', hs'⟩ := (C11_insert_succeeds (h.filled b).toRule s).2 ⟨h.pred, _, rfl, hw⟩
  refine ⟨s', ?_, ?_⟩
  · have := learn_step C.lens (C.findLearn hins hrs) (p := h.pred) h.args (h.body.map toAtom) b n (s' := s')
      (by rw [C.lens.get_put, ← filled_toRule b hf]; exact hs')
    rw [C.lens.put_put] at this
    exact this
  · rw [List.map_append, insertAll_append hins]
    simp only [List.map_cons, List.map_nil, insertAll, hs']

theorem Classroom.ask_step (C : Classroom W) {rs : List HornRule} {s : InfState} (hins : insertAll (rs.map HornRule.toRule) InfState.init = .ok s)
    {q : Query} {b : Binding} (hr : C.Ready rs q b) (n : Nat) :
    (solverAt C.modules n).solve (toQuery q) b (C.lens.put s C.w0) = .oof ∨
    ∃ bs, (solverAt C.modules n).solve (toQuery q) b (C.lens.put s C.w0) = .ok (C.lens.put s C.w0) (.rows bs) ∧
      SoundB (program (C.dbs ++ C.dbs') rs) q b bs ∧ NoDup bs ∧ (HeadsBound rs → CompleteB (program (C.dbs ++ C.dbs') rs) q b bs) := by
  obtain ⟨ar, hok, hq, hb, hfacts⟩ := hr
  have hins' : insertAll (rs.map HornRule.toRule) InfState.init = .ok (C.lens.get (C.lens.put s C.w0)) := by rw [C.lens.get_put]; exact hins
  have hh := holds_inference C.lens (C.lens.put s C.w0) ar (hfacts s).1 (hfacts s).2 rs hok hins'
  rcases solve_good (holds_wellFormed hok hh) n hq hb with h1 | ⟨bs, h1, _⟩
  · exact .inl h1
  · exact .inr ⟨bs, h1, KnowledgeBase.exact ⟨C.lens, C.lens.put s C.w0, C.before, C.after, C.dbs, C.dbs', rfl, (hfacts s).1, (hfacts s).2, hok, hins'⟩
      hq hb h1⟩

/-! ## Sessions -/

theorem Classroom.session (C : Classroom W) (n : Nat) (ls : List Lesson) {rs : List HornRule} {s : InfState}
    (hins : insertAll (rs.map HornRule.toRule) InfState.init = .ok s) (hrs : ∀ r ∈ rs, r.pred ≠ "learn_rule") (hls : Sensible C rs ls) :
    runLessons (solverAt C.modules (n + 1)) ls (C.lens.put s C.w0) = .oof ∨
    ∃ outs s', runLessons (solverAt C.modules (n + 1)) ls (C.lens.put s C.w0) = .ok (C.lens.put s' C.w0) outs ∧
      RightOutcomes (C.dbs ++ C.dbs') rs ls outs ∧ insertAll ((rs ++ taught ls).map HornRule.toRule) InfState.init = .ok s' := by
  induction ls generalizing rs s with
  | nil => exact .inr ⟨[], s, rfl, trivial, by simpa [taught] using hins⟩
  | cons l ls ih =>
    cases l with
    | ask q b =>
      simp only [runLessons, Lesson.query, Lesson.binding]
      rcases C.ask_step hins hls.1 (n + 1) with h1 | ⟨bs, h1, h2⟩
      · left; rw [M.bind_run, h1]
      · rw [M.bind_ok h1]
        rcases ih hins hrs hls.2 with h3 | ⟨outs, s', h3, h4, h5⟩
        · left; rw [M.bind_run, h3]
        · right
          rw [M.bind_ok h3]
          exact ⟨_, s', rfl, ⟨h2.1, h2.2.1, h2.2.2, h4⟩, h5⟩
    | teach h b =>
      obtain ⟨hw, hn, hf, hls'⟩ := hls
      obtain ⟨s1, h1, h2⟩ := C.teach_step hins hrs hw hf b n
      simp only [runLessons, Lesson.binding]
      rw [M.bind_ok h1]
      have hrs' : ∀ r ∈ rs ++ [h.filled b], r.pred ≠ "learn_rule" := by
        intro r hr
        rcases List.mem_append.1 hr with hr | hr
        · exact hrs r hr
        · rw [List.mem_singleton.1 hr]; exact hn
      rcases ih h2 hrs' hls' with h3 | ⟨outs, s', h3, h4, h5⟩
      · left; rw [M.bind_run, h3]
      · right
        rw [M.bind_ok h3]
        refine ⟨_, s', rfl, ⟨rfl, h4⟩, ?_⟩
        simpa [taught] using h5

/-- **C104** A session of questions and lessons: each question gets exactly the answers that follow from the stored rows, the rules of the start and
the rules taught before that question. At the end the inference module holds the rules of the start and the taught rules, in the order in which they
came. Nothing else changes. -/
theorem C104_answers (C : Classroom W) {n : Nat} {ls : List Lesson} {rs : List HornRule} {s : InfState}
    (hins : insertAll (rs.map HornRule.toRule) InfState.init = .ok s) (hrs : ∀ r ∈ rs, r.pred ≠ "learn_rule") (hls : Sensible C rs ls)
    {w' : W} {outs : List SolOut} (h : runLessons (solverAt C.modules (n + 1)) ls (C.lens.put s C.w0) = .ok w' outs) :
    RightOutcomes (C.dbs ++ C.dbs') rs ls outs ∧
      ∃ s', w' = C.lens.put s' C.w0 ∧ insertAll ((rs ++ taught ls).map HornRule.toRule) InfState.init = .ok s' := by
  rcases C.session n ls hins hrs hls with h1 | ⟨outs', s', h1, h2, h3⟩
  · rw [h] at h1; simp at h1
  · rw [h] at h1
    simp only [Res.ok.injEq] at h1
    obtain ⟨rfl, rfl⟩ := h1
    exact ⟨h2, s', rfl, h3⟩

/-- **C104** No step of a session raises an exception. -/
theorem C104_no_exception (C : Classroom W) (n : Nat) {ls : List Lesson} {rs : List HornRule} {s : InfState}
    (hins : insertAll (rs.map HornRule.toRule) InfState.init = .ok s) (hrs : ∀ r ∈ rs, r.pred ≠ "learn_rule") (hls : Sensible C rs ls)
    (w' : W) (e : Err) : runLessons (solverAt C.modules (n + 1)) ls (C.lens.put s C.w0) ≠ .err w' e := by
  rcases C.session n ls hins hrs hls with h1 | ⟨outs', s', h1, _⟩ <;> rw [h1] <;> simp

/-- **C104** If the rules, those taught included, only use predicates of a lower rank than their own, then a session returns at every depth above the
ranks of the predicates in the questions. -/
theorem C104_returns (C : Classroom W) {n : Nat} {ls : List Lesson} {rs : List HornRule} {s : InfState}
    (hins : insertAll (rs.map HornRule.toRule) InfState.init = .ok s) (hrs : ∀ r ∈ rs, r.pred ≠ "learn_rule") (hls : Sensible C rs ls)
    {rank : String → Nat} (hrank : ∀ r ∈ rs ++ taught ls, ∀ a ∈ r.body, rank a.1 < rank r.pred)
    (hn : ∀ q b, Lesson.ask q b ∈ ls → ∀ a ∈ q, rank a.1 ≤ n) :
    ∃ w' outs, runLessons (solverAt C.modules (n + 1)) ls (C.lens.put s C.w0) = .ok w' outs := by
  induction ls generalizing rs s with
  | nil => exact ⟨_, _, rfl⟩
  | cons l ls ih =>
    cases l with
    | ask q b =>
      obtain ⟨⟨ar, hok, hq, hb, hfacts⟩, hls'⟩ := hls
      have hins' : insertAll (rs.map HornRule.toRule) InfState.init = .ok (C.lens.get (C.lens.put s C.w0)) := by rw [C.lens.get_put]; exact hins
      obtain ⟨bs, h1⟩ := C10_nonrecursive_terminates C.lens (hfacts s).1 (hfacts s).2 hok hins' (rank := rank)
        (fun r hr => hrank r (List.mem_append_left _ hr)) hq hb (hn q b (by simp))
      obtain ⟨w', outs, h2⟩ := ih hins hrs hls' hrank (fun q' b' hm => hn q' b' (List.mem_cons_of_mem _ hm))
      simp only [runLessons, Lesson.query, Lesson.binding]
      have h1' : (solverAt C.modules (n + 1)).solve (toQuery q) b (C.lens.put s C.w0) = .ok (C.lens.put s C.w0) (.rows bs) := h1
      rw [M.bind_ok h1', M.bind_ok h2]
      exact ⟨_, _, rfl⟩
    | teach h b =>
      obtain ⟨hw, hne, hf, hls'⟩ := hls
      obtain ⟨s1, h1, h2⟩ := C.teach_step hins hrs hw hf b n
      have hrs' : ∀ r ∈ rs ++ [h.filled b], r.pred ≠ "learn_rule" := by
        intro r hr
        rcases List.mem_append.1 hr with hr | hr
        · exact hrs r hr
        · rw [List.mem_singleton.1 hr]; exact hne
      obtain ⟨w', outs, h3⟩ := ih h2 hrs' hls' (by simpa [taught] using hrank) (fun q' b' hm => hn q' b' (List.mem_cons_of_mem _ hm))
      simp only [runLessons, Lesson.binding]
      rw [M.bind_ok h1, M.bind_ok h3]
      exact ⟨_, _, rfl⟩

theorem right_append {tables : List (Dict (List (List Value)))} {ls : List Lesson} {rs : List HornRule} {q : Query} {b : Binding} {outs : List SolOut}
    (h : RightOutcomes tables rs (ls ++ [.ask q b]) outs) :
    ∃ mid bs, outs = mid ++ [.rows bs] ∧ SoundB (program tables (rs ++ taught ls)) q b bs ∧ NoDup bs ∧
      (HeadsBound (rs ++ taught ls) → CompleteB (program tables (rs ++ taught ls)) q b bs) := by
  induction ls generalizing rs outs with
  | nil =>
    match outs, h with
    | [.rows bs], h => exact ⟨[], bs, rfl, by simpa [taught] using h.1, h.2.1, by simpa [taught] using h.2.2.1⟩
    | .rows _ :: _ :: _, h => exact absurd h.2.2.2 (by simp [RightOutcomes])
  | cons l ls ih =>
    cases l with
    | ask q' b' =>
      match outs, h with
      | .rows bs' :: outs, h =>
        obtain ⟨mid, bs, rfl, h1⟩ := ih h.2.2.2
        exact ⟨.rows bs' :: mid, bs, rfl, h1⟩
    | teach h' b' =>
      match outs, h with
      | .rows bs' :: outs, h =>
        obtain ⟨mid, bs, rfl, h1⟩ := ih h.2
        exact ⟨.rows bs' :: mid, bs, rfl, by simpa [taught] using h1⟩

/-- **C104** What was answered is answered again: when a question is asked twice in a session, whatever was taught and asked in between, then all
answers of the first time are answers of the second time. -/
theorem C104_kept (C : Classroom W) {n : Nat} {q : Query} {b : Binding} {ls : List Lesson} {rs : List HornRule} {s : InfState}
    (hins : insertAll (rs.map HornRule.toRule) InfState.init = .ok s) (hrs : ∀ r ∈ rs, r.pred ≠ "learn_rule")
    (hls : Sensible C rs (.ask q b :: (ls ++ [.ask q b]))) (hrr : HeadsBound (rs ++ taught ls))
    {w' : W} {outs : List SolOut} (h : runLessons (solverAt C.modules (n + 1)) (.ask q b :: (ls ++ [.ask q b])) (C.lens.put s C.w0) = .ok w' outs) :
    ∃ bs mid bs', outs = .rows bs :: (mid ++ [.rows bs']) ∧ ∀ b1 ∈ bs, ∃ b2 ∈ bs', ∀ x, b1.get x = b2.get x := by
  have hr := (C104_answers C hins hrs hls h).1
  match outs, hr with
  | .rows bs :: outs, hr =>
    obtain ⟨mid, bs', rfl, h1, _, h3⟩ := right_append hr.2.2.2
    refine ⟨bs, mid, bs', rfl, ?_⟩
    refine answers_mono (fun a _ row hd => hd.mono (Q := program (C.dbs ++ C.dbs') (rs ++ taught ls)) ?_ ?_) hr.1 h1 (h3 hrr)
    · exact fun p row hf => hf
    · exact fun p hargs body hr' => List.mem_append_left _ hr'

/-- **C104** A fact that is taught is known from then on: asking for it gives an answer, whatever was taught and asked in between. -/
theorem C104_fact (C : Classroom W) {n : Nat} {p : String} {vs : List Value} (hvs : ∀ v ∈ vs, v.isVar = false) {b b' : Binding} {ls : List Lesson}
    {rs : List HornRule} {s : InfState}
    (hins : insertAll (rs.map HornRule.toRule) InfState.init = .ok s) (hrs : ∀ r ∈ rs, r.pred ≠ "learn_rule") (hb' : PlainB b')
    (hls : Sensible C rs (.teach ⟨p, vs, []⟩ b :: (ls ++ [.ask [(p, vs)] b']))) (hrr : HeadsBound (rs ++ taught (.teach ⟨p, vs, []⟩ b :: ls)))
    {w' : W} {outs : List SolOut}
    (h : runLessons (solverAt C.modules (n + 1)) (.teach ⟨p, vs, []⟩ b :: (ls ++ [.ask [(p, vs)] b'])) (C.lens.put s C.w0) = .ok w' outs) :
    ∃ mid bs, outs = mid ++ [.rows bs] ∧ bs.length = 1 ∧ ∀ b1 ∈ bs, ∀ x, b1.get x = b'.get x := by
  have hr := (C104_answers C hins hrs hls h).1
  obtain ⟨mid, bs, rfl, h1, h2, h3⟩ := right_append (ls := .teach ⟨p, vs, []⟩ b :: ls) hr
  have hsame : ∀ b1 ∈ bs, ∀ x, b1.get x = b'.get x := by
    intro b1 hb1 x
    obtain ⟨_, hext, hdom, _⟩ := h1 b1 hb1
    have hnv : x ∉ queryVars [(p, vs)] := by
      intro hx
      obtain ⟨a, ha, hxa⟩ := mem_queryVars.1 hx
      rw [List.mem_singleton.1 ha] at hxa
      have := hvs _ hxa
      simp [Value.isVar] at this
    cases e : b'.get x with
    | some v => exact hext x v e
    | none =>
      cases e1 : b1.get x with
      | none => rfl
      | some v =>
        rcases (hdom x).1 ((Dict.has_iff _ _).2 ⟨v, e1⟩) with h | h
        · rw [Dict.has_iff] at h; obtain ⟨u, hu⟩ := h; rw [e] at hu; simp at hu
        · exact absurd h hnv
  refine ⟨mid, bs, rfl, ?_, hsame⟩
  have hfill : ∀ (c : Binding), vs.map (fillVar c) = vs := fun c =>
    (List.map_congr_left fun v hv => by have := hvs v hv; cases v <;> first | rfl | simp [Value.isVar] at this).trans (List.map_id _)
  have hinst : ∀ σ : Assignment, vs.map (inst σ) = vs := fun σ =>
    (List.map_congr_left fun v hv => by have := hvs v hv; cases v <;> first | rfl | simp [Value.isVar] at this).trans (List.map_id _)
  obtain ⟨b1, hb1, _⟩ := h3 hrr (completion b') (completion_plain hb') (completion_agrees b') (by
    intro a ha
    rw [List.mem_singleton.1 ha]
    refine Derivable.rule (hargs := vs) (body := []) (completion b') ?_ (completion_plain hb') (by simp)
    simp [program, taught, HornRule.filled, hfill])
  match bs, hb1, h2 with
  | [_], _, _ => rfl
  | c1 :: c2 :: _, _, h2 =>
    exact absurd (fun x => (hsame c1 (by simp) x).trans (hsame c2 (by simp) x).symm) ((List.pairwise_cons.1 h2).1 c2 (by simp))

/-! ## A session -/

namespace Ex

/-- The family, and an inference module. -/
def school : Classroom InfState where
  lens := Lens.id InfState
  w0 := InfState.init
  before := [family].map (tableModule InfState)
  after := []
  dbs := [family]
  dbs' := []
  learns := by
    intro s m hm
    simp only [List.map_cons, List.map_nil, List.append_nil, List.mem_singleton] at hm
    subst hm; rfl

theorem school_ok {rs : List HornRule} (hex : ∃ r ∈ rs, r.pred = "ancestor")
    (h : ∀ r ∈ rs, familyAr r.pred = some r.args.length ∧ ArgsOk r.args ∧ QueryOk familyAr r.body) : ProgramOk InfState familyAr [family] rs := by
  refine ⟨family_ok.notReserved, fun p k hp => ?_, family_ok.rowsOk, h⟩
  rcases family_ok.defined p k hp with h1 | ⟨r, hr, rfl⟩
  · exact .inl h1
  · right
    simp only [ancestorRules, List.mem_cons, List.not_mem_nil, or_false] at hr
    rcases hr with rfl | rfl <;> exact hex

/-- `ancestor('ann', 'zed').` -/
def zed : HornRule := ⟨"ancestor", [.str "ann", .str "zed"], []⟩

/-- `ancestor(E, Y) :- parent(Y, E).` -/
def reversed : HornRule := ⟨"ancestor", [.var "E", .var "Y"], [("parent", [.var "Y", .var "E"])]⟩

/-- Who has ann as ancestor? -/
def annQuery : Query := [("ancestor", [.str "ann", .var "W"])]

/-- A question, a fact, and a rule in which `E` is bound. -/
def session : List Lesson :=
  [.ask annQuery [], .teach zed [], .teach reversed [("E", .str "cas")]]

/-- What is taught in it. -/
theorem session_taught : taught session = [zed, ⟨"ancestor", [.str "cas", .var "Y"], [("parent", [.var "Y", .str "cas"])]⟩] := rfl

theorem noBinding : PlainB [] := by intro x v h; simp at h

theorem school_rules : ∀ r ∈ ancestorRules ++ taught session,
    familyAr r.pred = some r.args.length ∧ ArgsOk r.args ∧ QueryOk familyAr r.body := by
  intro r hr
  rcases List.mem_append.1 hr with hr | hr
  · exact family_ok.rulesOk r hr
  · rw [session_taught] at hr
    simp only [List.mem_cons, List.not_mem_nil, or_false] at hr
    rcases hr with rfl | rfl <;> simp [zed, QueryOk, ArgsOk, Value.isVar, familyAr, Plain, legal]

theorem school_ready {q : Query} (hq : QueryOk familyAr q) {rs : List HornRule} (hrs : ∀ r ∈ rs, r ∈ ancestorRules ++ taught session)
    (hex : ∃ r ∈ rs, r.pred = "ancestor") : school.Ready rs q [] :=
  ⟨familyAr, school_ok hex fun r hr => school_rules r (hrs r hr), hq, noBinding, fun _ => ⟨tableModules_fact _ _ _, trivial⟩⟩

theorem ancestor_word : WordName "ancestor" := (isWord_iff _).1 (by decide +kernel)

theorem zed_ok : QueryOk familyAr [("ancestor", [.str "ann", .str "zed"])] := by
  simp [QueryOk, ArgsOk, Value.isVar, familyAr, Plain, legal]

theorem session_sensible {q : Query} (hq : QueryOk familyAr q) : Sensible school ancestorRules (session ++ [.ask q []]) := by
  refine ⟨school_ready family_query_ok (fun r hr => List.mem_append_left _ hr) ⟨_, List.mem_cons_self, rfl⟩, ancestor_word, by decide,
    by simp [HornRule.Flat, zed, FlatValue], ancestor_word, by decide, by simp [HornRule.Flat, reversed, FlatValue], ?_, trivial⟩
  exact school_ready hq (fun r hr => by simpa [taught, session] using hr) ⟨_, List.mem_cons_self, rfl⟩

theorem session_run : runLessons (solverAt school.modules 7) (session ++ [.ask annQuery []]) (school.lens.put familyState school.w0) =
    .ok (school.lens.put ⟨familyState.relations, [("ancestor", (ancestorRules ++ taught session).map HornRule.toRule)]⟩ school.w0)
      [.rows [[("W", .str "bob")], [("W", .str "cas")], [("W", .str "dan")]], .rows [[]], .rows [[("E", .str "cas")]],
       .rows [[("W", .str "bob")], [("W", .str "cas")], [("W", .str "dan")], [("W", .str "zed")]]] := by
  decide +kernel

theorem session_heads : HeadsBound (ancestorRules ++ taught session) := by
  intro r hr x hx
  rcases List.mem_append.1 hr with hr | hr
  · exact ancestor_heads r hr x hx
  · rw [session_taught] at hr
    simp only [List.mem_cons, List.not_mem_nil, or_false] at hr
    rcases hr with rfl | rfl <;> simp [zed, queryVars] at hx ⊢
    exact hx

theorem rules_not_learn : ∀ r ∈ ancestorRules, r.pred ≠ "learn_rule" := by decide

/-- The hypotheses of the theorems are met by it. -/
example := C104_answers school family_inserted rules_not_learn (session_sensible family_query_ok) session_run
example := C104_no_exception school 6 family_inserted rules_not_learn (session_sensible zed_ok)
example := C104_kept school (ls := session.tail) family_inserted rules_not_learn (session_sensible family_query_ok) session_heads session_run

/-- The fact that is taught is known at the end. -/
theorem zed_run : runLessons (solverAt school.modules 7) (session.tail ++ [.ask [("ancestor", [.str "ann", .str "zed"])] []])
    (school.lens.put familyState school.w0) =
    .ok (school.lens.put ⟨familyState.relations, [("ancestor", (ancestorRules ++ taught session).map HornRule.toRule)]⟩ school.w0)
      [.rows [[]], .rows [[("E", .str "cas")]], .rows [[]]] := by
  decide +kernel

example := C104_fact school (n := 6) (ls := [.teach reversed [("E", .str "cas")]]) (by simp [Value.isVar]) family_inserted rules_not_learn noBinding
  (session_sensible zed_ok).2 session_heads zed_run

/-- **C104** The condition that no rule for `learn_rule` is taught is needed. A rule for `learn_rule` takes the place of the function that learns: what
is taught afterwards is accepted without an exception, but not stored. -/
theorem C104_learns_no_more : runLessons (solverAt school.modules 7)
    [.teach ⟨"learn_rule", [.str "a", .str "b"], []⟩ [], .teach zed [], .ask [("ancestor", [.str "ann", .str "zed"])] []]
    (school.lens.put familyState school.w0) =
    .ok (school.lens.put ⟨[("learn_rule", .handleRule), ("ancestor", .handleRule)], [("ancestor", ancestorRules.map HornRule.toRule),
        ("learn_rule", [(⟨"learn_rule", [.str "a", .str "b"], []⟩ : HornRule).toRule])]⟩ school.w0)
      [.rows [[]], .rows [], .rows []] := by
  decide +kernel

/-- A session in which the first rule is taught; it only uses `parent`. -/
example := C104_returns school (n := 1) (ls := [.teach ⟨"ancestor", [.var "X", .var "Y"], [("parent", [.var "X", .var "Y"])]⟩ [], .ask annQuery []]) (rs := [])
  (s := InfState.init) rfl (by simp)
  ⟨ancestor_word, by decide, by simp [HornRule.Flat, FlatValue],
    school_ready family_query_ok (fun r hr => List.mem_append_left _ (by simp at hr; subst hr; exact List.mem_cons_self)) ⟨_, List.mem_cons_self, rfl⟩, trivial⟩
  (rank := fun p => if p = "ancestor" then 1 else 0)
  (by intro r hr; simp [taught] at hr; subst hr; simp [HornRule.filled])
  (by intro q b h; simp at h; obtain ⟨rfl, _⟩ := h; simp [annQuery])

end Ex

end Verif

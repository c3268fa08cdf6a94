import Verif.RuleFormsLemmas
import Verif.RuleBase

/-!
# The solver computes what rules with negation, quantifiers, numbers and alternatives say
-/

namespace Verif

section
variable {W : Type} {w : W} {ar : String → Option Nat} {calls : Calls} {I : Interpretation}

/-- What the solver may be asked for a rule's body. -/
def BodyExact (ar : String → Option Nat) (calls : Calls) (I : Interpretation) (w : W) (solver : SolverApi W) : Prop :=
  ∀ q b, FormsOk ar q (dom b) → FormsCalled calls q (dom b) → PlainB b → ∀ w1 o, solver.solve (.list (formValues q)) b w = .ok w1 o →
    w1 = w ∧ ∃ bs, o = .rows bs ∧ Exact (formBinds q) (SatAll I.facts q (dom b)) b bs

/-- Entering a rule: the body is a proper query, and says what it says when the given head variables are known. -/
theorem enter_rule {r : FormRule} (hok : FormRuleOk ar calls r) {b rb : Binding} (hb : PlainB b) {args : List Value} (hargs : ArgsOk args)
    (hc : calls r.pred (knownAt (dom b) args)) (hbh : bindHead b r.args args (b.without r.toRule.variables) = some rb) :
    FormsOk ar r.body (dom rb) ∧ FormsCalled calls r.body (dom rb) ∧ (∀ x, .var x ∈ r.args → dom rb x ∨ x ∈ formBinds r.body) ∧
      ∀ σ : Assignment, (∀ x, Plain (σ x)) → (SatAll I.facts r.body (dom rb) σ ↔ SatAll I.facts r.body (· ∈ r.given) σ) := by
  have hdom : ∀ x, dom rb x ↔ (b.without r.toRule.variables).has x = true ∨ r.known (knownAt (dom b) args) x := fun x => bindHead_dom hb hargs hbh x
  have hsame : ∀ x ∈ formVars r.body, r.known (knownAt (dom b) args) x ↔ dom rb x := by
    intro x hx
    rw [hdom x]
    constructor
    · exact .inr
    · rintro (h | h)
      · obtain ⟨v, hv⟩ := (Dict.has_iff _ _).1 h
        rw [Dict.get_without, if_pos] at hv
        · simp at hv
        · simp only [Rule.variables, FormRule.toRule, List.mem_append, varsOf]
          exact .inr (forms_vars r.body x hx)
      · exact h
  refine ⟨formsOk_congr _ hsame (hok.body _ hc), formsCalled_congr _ hsame (hok.called _ hc), fun x hx => ?_, fun σ hp => ?_⟩
  · exact (hok.bound _ hc x hx).imp (fun h => (hdom x).2 (.inr h)) id
  · rw [← satAll_congr I.facts r.body hsame hp hp fun _ _ => rfl]
    exact satAll_same I.facts r.body (hok.same _ hc) hp

theorem without_plain {b : Binding} (hb : PlainB b) (vs : List String) : PlainB (b.without vs) := by
  intro x v hx
  rw [Dict.get_without] at hx
  split at hx
  · simp at hx
  · exact hb x v hx

theorem solveRule_form {r : FormRule} (hok : FormRuleOk ar calls r) {solver : SolverApi W} (hsolve : BodyExact ar calls I w solver)
    {b : Binding} (hb : PlainB b) {args : List Value} (hargs : ArgsOk args) (hl : r.args.length = args.length)
    (hc : calls r.pred (knownAt (dom b) args)) {w' : W} {rows : List (List Value)} (h : solveRule r.toRule args solver b w = .ok w' rows) :
    w' = w ∧ (∀ row ∈ rows, RowOk b args row ∧ r.Says I row) ∧
      ∀ σ : Assignment, (∀ x, Plain (σ x)) → Agrees σ b → r.Says I (args.map (inst σ)) → args.map (inst σ) ∈ rows := by
  have hvars : ∀ x, .var x ∈ r.args ∨ x ∈ formVars r.body → x ∈ r.toRule.variables := by
    intro x hx
    simp only [Rule.variables, FormRule.toRule, List.mem_append, varsOf]
    rcases hx with hx | hx
    · exact .inl (mem_varsOfList.2 ⟨.var x, List.mem_cons_of_mem _ hx, by simp [varsOf]⟩)
    · exact .inr (forms_vars r.body x hx)
  have hent : ∀ {rb}, bindHead b r.args args (b.without r.toRule.variables) = some rb → _ := fun h => enter_rule (I := I) hok hb hargs hc h
  have hwb : PlainB (b.without r.toRule.variables) := without_plain hb _
  generalize hvs : r.toRule.variables = vs at hvars hent hwb
  -- the assignment for the rule's variables, and that of the caller elsewhere
  have hcomb : ∀ σ τ : Assignment, (∀ x, Plain (σ x)) → (∀ x, Plain (τ x)) → Agrees σ b →
      (∀ x, Plain (onVars vs σ τ x)) ∧ Agrees (onVars vs σ τ) (b.without vs) ∧ r.args.map (inst (onVars vs σ τ)) = r.args.map (inst τ) ∧
        ∀ B, SatAll I.facts r.body B τ → SatAll I.facts r.body B (onVars vs σ τ) := by
    intro σ τ hσp hτp hσ
    refine ⟨onVars_plain hσp hτp, ?_, ?_, ?_⟩
    · intro x v hx
      rw [Dict.get_without] at hx
      split at hx
      · simp at hx
      · rename_i hn
        have hn' : x ∉ vs := by simpa using hn
        simp only [onVars, hn', if_false]
        exact hσ x v hx
    · exact map_inst_congr fun x hx => onVars_mem (hvars x (.inl hx))
    · intro B hB
      exact (satAll_congr I.facts r.body (fun _ _ => Iff.rfl) hτp (onVars_plain hσp hτp) fun x hx => (onVars_mem (hvars x (.inr hx))).symm).1 hB
  unfold solveRule at h
  rw [hvs] at h
  have htail : r.toRule.head.tail = r.args := rfl
  rw [htail] at h
  cases hbh : bindHead b r.args args (b.without vs) with
  | none =>
    simp only [hbh, M.pure_run, Res.ok.injEq] at h
    obtain ⟨rfl, rfl⟩ := h
    refine ⟨rfl, by simp, ?_⟩
    rintro σ hσp hσ ⟨τ, hτp, heq, _⟩
    obtain ⟨h1, h2, h3, h4⟩ := hcomb σ τ hσp hτp hσ
    obtain ⟨rb', h5, _⟩ := bindHead_complete hb hargs hσ h2 (h3.trans heq)
    rw [hbh] at h5; simp at h5
  | some rb =>
    obtain ⟨_, hrb, hho⟩ := bindHead_sound hb hargs hwb hbh
    obtain ⟨hq1, hq2, hbound, hsat⟩ := hent hbh
    simp only [hbh] at h
    rw [ite_bind] at h
    obtain ⟨w1, o, h1, h2⟩ := M.bind_eq_ok.1 h
    have hrun : w1 = w ∧ ∃ bs, o = .rows bs ∧ Exact (formBinds r.body) (SatAll I.facts r.body (dom rb)) rb bs := by
      cases hbody : r.body with
      | nil =>
        have he : emptyBody r.toRule.body = true := by simp [FormRule.toRule, hbody, formValues, emptyBody]
        rw [if_pos he] at h1
        simp only [M.pure_run, Res.ok.injEq] at h1
        obtain ⟨rfl, rfl⟩ := h1
        refine ⟨rfl, [rb], rfl, ?_⟩
        have := exact_test hrb (S := SatAll I.facts [] (dom rb)) (c := True) fun σ _ _ => by simp [SatAll]
        simpa only [if_true, formBinds] using this
      | cons f fs =>
        have he : emptyBody r.toRule.body = false := by simp [FormRule.toRule, hbody, formValues, emptyBody]
        rw [if_neg (by simp [he])] at h1
        rw [← hbody]
        exact hsolve r.body rb hq1 hq2 hrb _ _ h1
    obtain ⟨rfl, bs, rfl, hx⟩ := hrun
    simp only [ruleRows, M.pure_run, Res.ok.injEq] at h2
    obtain ⟨rfl, rfl⟩ := h2
    have htot : ∀ s ∈ bs, ∃ row, headRow s r.args args = some row := by
      intro s hs
      refine headRow_total fun x hx' => ?_
      exact ((hx.sound s hs).2.2.1 x).2 (hbound x hx')
    obtain ⟨rows, hrows⟩ := headRows_total htot
    rw [hrows]
    simp only [Option.getD_some]
    refine ⟨trivial, ?_, ?_⟩
    · intro row hrow
      obtain ⟨s, hs, hsr⟩ := (headRows_some hrows row).1 hrow
      obtain ⟨hps, hes, _, hds⟩ := hx.sound s hs
      obtain ⟨h5, h6⟩ := headRow_sound hps hok.args hargs hl (hho.mono hes) hsr
      exact ⟨h5, totalOf s, totalOf_plain hps, h6 _ (totalOf_agrees s), (hsat _ (totalOf_plain hps)).1 (hds _ (totalOf_plain hps) (totalOf_agrees s))⟩
    · rintro σ hσp hσ ⟨τ, hτp, heq, hbody⟩
      obtain ⟨h5, h6, h7, h8⟩ := hcomb σ τ hσp hτp hσ
      obtain ⟨rb', h9, h10⟩ := bindHead_complete hb hargs hσ h6 (h7.trans heq)
      rw [hbh] at h9
      cases h9
      obtain ⟨s, hs, hsτ⟩ := hx.complete _ h5 h10 ((hsat _ h5).2 (h8 _ hbody))
      obtain ⟨row, hrow⟩ := htot s hs
      obtain ⟨hps, hes, _, _⟩ := hx.sound s hs
      have hrow' := (headRow_sound hps hok.args hargs hl (hho.mono hes) hrow).2 _ hsτ
      rw [← heq, ← h7, hrow']
      exact (headRows_some hrows row).2 ⟨s, hs, hrow⟩

theorem solveRules_form {p : String} {solver : SolverApi W} (hsolve : BodyExact ar calls I w solver) {b : Binding} (hb : PlainB b) {args : List Value}
    (hargs : ArgsOk args) (hp : ar p = some args.length) (hc : calls p (knownAt (dom b) args)) {rs : List FormRule}
    (hrs : ∀ r ∈ rs, r.pred = p ∧ FormRuleOk ar calls r) {acc : List (List Value)} {w' : W} {rows : List (List Value)}
    (h : solveRules args solver b (rs.map FormRule.toRule) acc w = .ok w' rows) :
    w' = w ∧ (∀ row ∈ rows, row ∈ acc ∨ (RowOk b args row ∧ ∃ r ∈ rs, r.Says I row)) ∧ (∀ row ∈ acc, row ∈ rows) ∧
      ∀ σ : Assignment, (∀ x, Plain (σ x)) → Agrees σ b → ∀ r ∈ rs, r.Says I (args.map (inst σ)) → args.map (inst σ) ∈ rows := by
  induction rs generalizing acc with
  | nil =>
    simp only [List.map_nil, solveRules, M.pure_run, Res.ok.injEq] at h
    obtain ⟨rfl, rfl⟩ := h
    exact ⟨rfl, fun row hr => .inl hr, fun _ hr => hr, by simp⟩
  | cons r rs ih =>
    simp only [List.map_cons, solveRules] at h
    obtain ⟨w1, rows1, h1, h2⟩ := M.bind_eq_ok.1 h
    obtain ⟨hpr, hok⟩ := hrs r (by simp)
    have hlen : r.args.length = args.length := by
      have := hok.arity
      rw [hpr, hp] at this
      simpa using this.symm
    obtain ⟨rfl, hs, hcm⟩ := solveRule_form hok hsolve hb hargs hlen (hpr ▸ hc) h1
    obtain ⟨rfl, ih1, ih2, ih3⟩ := ih (fun r hr => hrs r (List.mem_cons_of_mem _ hr)) h2
    refine ⟨rfl, ?_, fun row hr => ih2 row (List.mem_append_left _ hr), ?_⟩
    · intro row hr
      rcases ih1 row hr with hr | ⟨h3, r', hr', h4⟩
      · rcases List.mem_append.1 hr with hr | hr
        · exact .inl hr
        · exact .inr ⟨(hs row hr).1, r, by simp, (hs row hr).2⟩
      · exact .inr ⟨h3, r', List.mem_cons_of_mem _ hr', h4⟩
    · intro σ hσp hσ r' hr' hsays
      rcases List.mem_cons.1 hr' with rfl | hr'
      · exact ih2 _ (List.mem_append_right _ (hcm σ hσp hσ hsays))
      · exact ih3 σ hσp hσ r' hr' hsays

/-- The modules, in this world, consist of tables and of an inference module with the rules. -/
structure HoldsForms (mods : List (Module W)) (g : W → InfState) (w : W) (ar : String → Option Nat)
    (dbs : List (Dict (List (List Value)))) (rs : List FormRule) : Prop where
  mem : ∀ p k, ar p = some k → ∀ r ∈ findRelations mods w p,
    (∃ db ∈ dbs, ∃ rows, db.get p = some rows ∧ TableLike r w rows) ∨ ((∃ r ∈ rs, r.pred = p) ∧ r = ruleRelation g p)
  tables : ∀ p k, ar p = some k → ∀ db ∈ dbs, ∀ rows, db.get p = some rows → ∃ r ∈ findRelations mods w p, TableLike r w rows
  heads : ∀ p k, ar p = some k → (∃ r ∈ rs, r.pred = p) → ruleRelation g p ∈ findRelations mods w p
  rules : ∀ p, (g w).rules.get p = if ∃ r ∈ rs, r.pred = p then
    some ((rs.filter (fun r => decide (r.pred = p))).map FormRule.toRule) else none

/-- Conditions on tables and rules; compare `ProgramOk`. -/
structure FormProgramOk (W : Type) (ar : String → Option Nat) (calls : Calls) (dbs : List (Dict (List (List Value)))) (rs : List FormRule) : Prop where
  notReserved : ar "$disjunction" = none ∧ ar "learn_rule" = none ∧ ∀ p f, (coreTable W).get p = some f → ar p = none
  defined : ∀ p k, ar p = some k → (∃ db ∈ dbs, db.has p = true) ∨ ∃ r ∈ rs, r.pred = p
  rowsOk : ∀ p k, ar p = some k → ∀ db ∈ dbs, ∀ rows, db.get p = some rows → ∀ row ∈ rows, row.length = k ∧ ∀ v ∈ row, Plain v
  rulesOk : ∀ r ∈ rs, FormRuleOk ar calls r

/-- One relation after the other: if this returns, each has returned. -/
theorem queryRelations_inv {api : SolverApi W} {mult : Bool} {args : List Value} {b : Binding} {db : List Value}
    {Q : Relation W → List (List Value) → Prop} {rels : List (Relation W)}
    (h : ∀ r ∈ rels, ∀ w' o,
      r.query db { predicate := r.predicate, columns := r.columns, arguments := args, binding := b, solver := api } w = .ok w' o →
        w' = w ∧ ∃ rows, o = .rows rows ∧ Q r rows) {acc : List (List Value)} {w' : W} {o : QOut}
    (hr : queryRelations api mult args b db rels acc w = .ok w' o) :
    ∃ outs, RunsAll api args b db rels w w outs ∧ (∀ rows ∈ outs, ∃ r ∈ rels, Q r rows) ∧ ∀ r ∈ rels, ∃ rows ∈ outs, Q r rows := by
  induction rels generalizing acc with
  | nil => exact ⟨[], .nil _, by simp, by simp⟩
  | cons r rels ih =>
    simp only [queryRelations] at hr
    obtain ⟨w1, o1, h1, h2⟩ := M.bind_eq_ok.1 hr
    obtain ⟨rfl, rows, rfl, hq⟩ := h r (by simp) _ _ h1
    obtain ⟨outs, h3, h4, h5⟩ := ih (fun r hr => h r (List.mem_cons_of_mem _ hr)) h2
    refine ⟨rows :: outs, .cons _ _ _ _ _ _ _ h1 h3, ?_, ?_⟩
    · intro rows' hr
      rcases List.mem_cons.1 hr with rfl | hr
      · exact ⟨r, by simp, hq⟩
      · obtain ⟨r', hr', hq⟩ := h4 rows' hr
        exact ⟨r', List.mem_cons_of_mem _ hr', hq⟩
    · intro r' hr
      rcases List.mem_cons.1 hr with rfl | hr
      · exact ⟨rows, by simp, hq⟩
      · obtain ⟨rows', hr', hq⟩ := h5 r' hr
        exact ⟨rows', List.mem_cons_of_mem _ hr', hq⟩

theorem handleRule_run {g : W → InfState} {p : String} {rs : List Rule} (hrs : (g w).rules.get p = some rs) {args db : List Value} {b : Binding}
    {api : SolverApi W} :
    (ruleRelation g p).query db ⟨(ruleRelation g p).predicate, (ruleRelation g p).columns, args, b, api⟩ w =
      (match solveRules args api b rs [] w with
        | .ok w' rows => .ok w' (.rows rows)
        | .err w' e => .err w' e
        | .oof => .oof) := by
  simp only [ruleRelation, handleRule]
  rw [M.bind_run]
  simp only [M.gets_run, hrs]
  rw [M.bind_run]
  cases solveRules args api b rs [] w <;> rfl

/-- What one relation answers, in terms of what is stored and what the rules say. -/
theorem relation_form {mods : List (Module W)} {g : W → InfState} {dbs : List (Dict (List (List Value)))} {rs : List FormRule}
    (hok : FormProgramOk W ar calls dbs rs) (hh : HoldsForms mods g w ar dbs rs) {api : SolverApi W} (hapi : BodyExact ar calls I w api)
    {p : String} {args : List Value} (hp : ar p = some args.length) (hargs : ArgsOk args) {b : Binding} (hb : PlainB b)
    (hc : calls p (knownAt (dom b) args)) {r : Relation W} (hr : r ∈ findRelations mods w p) {w' : W} {o : QOut}
    (h : r.query (dbValues args b) { predicate := r.predicate, columns := r.columns, arguments := args, binding := b, solver := api } w = .ok w' o) :
    w' = w ∧ ∃ rows, o = .rows rows ∧
      ((∀ row ∈ rows, RowOk b args row ∧ (StoredIn dbs p row ∨ ∃ r ∈ rs, r.pred = p ∧ r.Says I row)) ∧
      ∀ σ : Assignment, (∀ x, Plain (σ x)) → Agrees σ b →
        (∀ rows', TableLike r w rows' → args.map (inst σ) ∈ rows' → args.map (inst σ) ∈ rows) ∧
        (r = ruleRelation g p → ∀ r' ∈ rs, r'.pred = p → r'.Says I (args.map (inst σ)) → args.map (inst σ) ∈ rows)) := by
  have hnone : (g w).rules.get "$disjunction" = none := by
    rw [hh.rules, if_neg]
    rintro ⟨r, hr, e⟩
    have := (hok.rulesOk r hr).arity
    rw [e, hok.notReserved.1] at this
    simp at this
  rcases hh.mem p _ hp r hr with ⟨db, hdb, rows, hget, htl⟩ | ⟨hex, rfl⟩
  · rw [htl] at h
    simp only [Res.ok.injEq] at h
    obtain ⟨rfl, rfl⟩ := h
    refine ⟨rfl, _, rfl, ?_, ?_⟩
    · intro row hrow
      rw [List.mem_filter] at hrow
      obtain ⟨h1, h2⟩ := hok.rowsOk p _ hp db hdb rows hget row hrow.1
      exact ⟨rowOk_of_matches hb h1 h2 hrow.2, .inl ⟨db, hdb, rows, hget, hrow.1⟩⟩
    · intro σ hσp hσ
      refine ⟨fun rows' htl' hm => ?_, ?_⟩
      · rw [htl'.unique htl] at hm
        rw [List.mem_filter]
        exact ⟨hm, matches_of_agrees hσ⟩
      · rintro rfl
        exact absurd htl (rule_not_tableLike hnone)
  · have hrs := hh.rules p
    rw [if_pos hex] at hrs
    rw [handleRule_run hrs] at h
    cases hs : solveRules args api b ((rs.filter (fun r => decide (r.pred = p))).map FormRule.toRule) [] w with
    | oof => simp [hs] at h
    | err => simp [hs] at h
    | ok w1 rows =>
      simp only [hs, Res.ok.injEq] at h
      obtain ⟨rfl, rfl⟩ := h
      obtain ⟨h1, h2, _, h3⟩ := solveRules_form hapi hb hargs hp hc (fun r hr => by
        rw [List.mem_filter] at hr
        exact ⟨by simpa using hr.2, hok.rulesOk r hr.1⟩) hs
      refine ⟨h1, rows, rfl, ?_, ?_⟩
      · intro row hrow
        rcases h2 row hrow with h4 | ⟨h4, r', hr', h5⟩
        · simp at h4
        · rw [List.mem_filter] at hr'
          exact ⟨h4, .inr ⟨r', hr'.1, by simpa using hr'.2, h5⟩⟩
      · intro σ hσp hσ
        refine ⟨fun rows' htl' _ => absurd htl' (rule_not_tableLike hnone), fun _ r' hr' hpr hsays => ?_⟩
        exact h3 σ hσp hσ r' (by rw [List.mem_filter]; exact ⟨hr', by simpa using hpr⟩) hsays

/-- Atoms are answered exactly. -/
theorem atom_form {mods : List (Module W)} {g : W → InfState} {dbs : List (Dict (List (List Value)))} {rs : List FormRule}
    (hok : FormProgramOk W ar calls dbs rs) (hh : HoldsForms mods g w ar dbs rs) (hI : Supported ar dbs rs I)
    {api : SolverApi W} (hapi : BodyExact ar calls I w api)
    {p : String} {args : List Value} (hp : ar p = some args.length) (hargs : ArgsOk args) {b : Binding} (hb : PlainB b)
    (hc : calls p (knownAt (dom b) args)) {w' : W} {out : SolOut} (h : solveSingle api mods (.tuple (.str p :: args)) b w = .ok w' out) :
    w' = w ∧ ∃ bs, out = .rows bs ∧ Exact (argVars args) (fun σ => Derivable I.facts p (args.map (inst σ))) b bs := by
  have hnd : p ≠ "$disjunction" := by
    rintro rfl; rw [hok.notReserved.1] at hp; simp at hp
  simp only [solveSingle_tuple, solveSingle.go, hnd, if_false, findRelationValues] at h
  rw [M.bind_run, M.bind_run] at h
  simp only [M.gets_run] at h
  have hdef : findRelations mods w p ≠ [] := by
    rcases hok.defined p _ hp with ⟨db, hdb, hdh⟩ | hr
    · obtain ⟨rows, hrows⟩ := (Dict.has_iff _ _).1 hdh
      obtain ⟨r, hr, _⟩ := hh.tables p _ hp db hdb rows hrows
      exact List.ne_nil_of_mem hr
    · exact List.ne_nil_of_mem (hh.heads p _ hp hr)
  have hrel := fun r hr w1 o h => relation_form (I := I) hok hh hapi hp hargs hb hc (r := r) hr (w' := w1) (o := o) h
  have htab := hh.tables p _ hp
  have hhead := hh.heads p _ hp
  generalize hrels : findRelations mods w p = rels at hdef hrel htab hhead h
  cases rels with
  | nil => simp at hdef
  | cons r0 rs0 =>
    dsimp only at h
    cases hqr : queryRelations api (decide (0 < rs0.length)) args b (dbValues args b) (r0 :: rs0) [] w with
    | oof => simp [hqr] at h
    | err => simp [hqr] at h
    | ok w1 o1 =>
      obtain ⟨outs, h1, h2, h3⟩ := queryRelations_inv hrel hqr
      rw [queryRelations_run h1] at h
      simp only [List.map_nil, List.nil_append] at h
      have hrows : ∀ row ∈ outs.flatten, RowOk b args row ∧ I p row := by
        intro row hrow
        obtain ⟨rows, hr, hrow⟩ := List.mem_flatten.1 hrow
        obtain ⟨r, _, hq⟩ := h2 rows hr
        obtain ⟨h4, h5⟩ := hq.1 row hrow
        exact ⟨h4, (hI p row (by rw [h4.length]; exact hp)).2 h5⟩
      have hleg : ∀ row ∈ outs.flatten, legalList row = true := fun row hr => legalList_of_rowOk (hrows row hr).1
      have hmem := mem_dedupRows hleg
      have hnodup : (dedupRows [] outs.flatten).Nodup := by
        have := dedupRows_nodup [] outs.flatten
        exact List.Pairwise.of_map strRow (fun a b h e => h (e ▸ rfl)) this
      generalize hd : dedupRows [] outs.flatten = rows at hmem hnodup h
      obtain ⟨bs, hbs⟩ := createResults_total (b := b) (args := args) (rows := rows) (fun row hr =>
        (hrows row ((hmem row).1 hr)).1.length)
      have hout : w' = w ∧ out = .rows bs := by
        cases rows with
        | nil =>
          simp only [createResults, Except.ok.injEq] at hbs
          subst hbs
          have h' : (Res.ok w (.rows []) : Res W SolOut) = .ok w' out := h
          simp only [Res.ok.injEq] at h'
          exact ⟨h'.1.symm, h'.2.symm⟩
        | cons row rows =>
          have := (hrows row ((hmem row).1 (by simp))).1.length
          simp only [resultsOf, this, ne_eq, not_true, if_false, hbs, Except.map, M.lift] at h
          have h' : (Res.ok w (.rows bs) : Res W SolOut) = .ok w' out := h
          simp only [Res.ok.injEq] at h'
          exact ⟨h'.1.symm, h'.2.symm⟩
      refine ⟨hout.1, bs, hout.2, ?_, ?_, ?_⟩
      · intro b' hb'
        obtain ⟨row, hrow, he⟩ := (createResults_mem hbs).1 hb'
        obtain ⟨hro, hder⟩ := hrows row ((hmem row).1 hrow)
        obtain ⟨_, h5, h6, h7, h8⟩ := extendRow_sound hro (Extends.refl _) he
        refine ⟨h7 hb, h5, fun x => by rw [h6, mem_argVars], fun σ _ hσ => ?_⟩
        rw [h8 σ hσ, derivable_facts]
        exact hder
      · intro σ hσp hσ hder
        rw [derivable_facts] at hder
        have hin : args.map (inst σ) ∈ rows := by
          rw [hmem]
          rcases (hI p _ (by simpa using hp)).1 hder with ⟨db, hdb, rows', hget, hm⟩ | ⟨r', hr', hpr, hsays⟩
          · obtain ⟨r, hr, htl⟩ := htab db hdb rows' hget
            obtain ⟨rows2, hro, hq⟩ := h3 r hr
            exact List.mem_flatten.2 ⟨rows2, hro, (hq.2 σ hσp hσ).1 rows' htl hm⟩
          · obtain ⟨rows2, hro, hq⟩ := h3 _ (hhead ⟨r', hr', hpr⟩)
            exact List.mem_flatten.2 ⟨rows2, hro, (hq.2 σ hσp hσ).2 rfl r' hr' hpr hsays⟩
        obtain ⟨b', hb', hag⟩ := extendRow_complete (b := b) (args := args) hσ (Extends.refl _)
        exact ⟨b', (createResults_mem hbs).2 ⟨_, hin, hb'⟩, hag⟩
      · exact createResults_noDup (fun row hr => (hrows row ((hmem row).1 hr)).1) hnodup hbs

theorem base_form {mods : List (Module W)} {g : W → InfState} {dbs : List (Dict (List (List Value)))} {rs : List FormRule}
    (hok : FormProgramOk W ar calls dbs rs) (hh : HoldsForms (modelOf mods) g w ar dbs rs) (hI : Supported ar dbs rs I)
    (hcore : ∀ p ∈ coreNames, NotDefined mods w p) : BaseIn mods w ar calls I.facts :=
  ⟨hcore, fun _ hn _ _ _ hp hc hargs hb _ _ h => atom_form hok hh hI hn hp hargs hb hc h⟩

/-- Atoms return if the bodies of the rules are of lower rank. -/
theorem return_form {mods : List (Module W)} {g : W → InfState} {dbs : List (Dict (List (List Value)))} {rs : List FormRule}
    (hok : FormProgramOk W ar calls dbs rs) (hh : HoldsForms (modelOf mods) g w ar dbs rs) (hI : Supported ar dbs rs I)
    (hcore : ∀ p ∈ coreNames, NotDefined mods w p) {rank : String → Nat} (hrank : ∀ r ∈ rs, formsDepth rank r.body ≤ rank r.pred) :
    AtomsReturn mods w ar calls rank := by
  intro n ih p args b hp hc hargs hb hr
  have hex := forms_exact (base_form hok hh hI hcore) n
  have hnd : p ≠ "$disjunction" := by
    rintro rfl; rw [hok.notReserved.1] at hp; simp at hp
  show solveSingle (solverAt (modelOf mods) n) (modelOf mods) (.tuple (.str p :: args)) b w ≠ .oof
  simp only [solveSingle_tuple, solveSingle.go, hnd, if_false, findRelationValues]
  rw [M.bind_run, M.bind_run]
  simp only [M.gets_run]
  have hrelq : ∀ r ∈ findRelations (modelOf mods) w p, r.query (dbValues args b)
      { predicate := r.predicate, columns := r.columns, arguments := args, binding := b, solver := solverAt (modelOf mods) n } w ≠ .oof := by
    intro r hr'
    rcases hh.mem p _ hp r hr' with ⟨db, hdb, rows, hget, htl⟩ | ⟨hexr, rfl⟩
    · rw [htl]; simp
    · have hrs := hh.rules p
      rw [if_pos hexr] at hrs
      rw [handleRule_run hrs]
      have hmemr : ∀ r ∈ rs.filter (fun r => decide (r.pred = p)), r ∈ rs ∧ r.pred = p := by
        intro r hr
        rw [List.mem_filter] at hr
        exact ⟨hr.1, by simpa using hr.2⟩
      have hfin : solveRules args (solverAt (modelOf mods) n) b ((rs.filter (fun r => decide (r.pred = p))).map FormRule.toRule) [] w ≠ .oof := by
        refine solveRules_fin ?_ ?_ []
        · intro r' hr'
          obtain ⟨fr, hfr, rfl⟩ := List.mem_map.1 hr'
          obtain ⟨hfr1, hfr2⟩ := hmemr fr hfr
          refine solveRule_fin fun rb _ hbh => ?_
          have hokr := hok.rulesOk fr hfr1
          obtain ⟨hq1, hq2, _, _⟩ := enter_rule (I := I) hokr hb hargs (hfr2 ▸ hc) hbh
          have hrb := (bindHead_sound hb hargs (without_plain hb _) hbh).2.1
          have := hrank fr hfr1
          rw [hfr2] at this
          exact ih fr.body rb hq1 hq2 hrb (by omega)
        · intro r' hr' w' rows hs
          obtain ⟨fr, hfr, rfl⟩ := List.mem_map.1 hr'
          obtain ⟨hfr1, hfr2⟩ := hmemr fr hfr
          have hokr := hok.rulesOk fr hfr1
          have hlen : fr.args.length = args.length := by
            have := hokr.arity
            rw [hfr2, hp] at this
            simpa using this.symm
          exact (solveRule_form (I := I) hokr hex hb hargs hlen (hfr2 ▸ hc) hs).1
      cases hs : solveRules args (solverAt (modelOf mods) n) b ((rs.filter (fun r => decide (r.pred = p))).map FormRule.toRule) [] w with
      | oof => exact absurd hs hfin
      | err => simp
      | ok => simp
  have hrelw : ∀ r ∈ findRelations (modelOf mods) w p, ∀ w1 o, r.query (dbValues args b)
      { predicate := r.predicate, columns := r.columns, arguments := args, binding := b, solver := solverAt (modelOf mods) n } w = .ok w1 o →
      w1 = w ∧ ∃ rows, o = .rows rows := by
    intro r hr' w1 o h1
    obtain ⟨h2, rows, h3, _⟩ := relation_form (I := I) hok hh hex hp hargs hb hc hr' h1
    exact ⟨h2, rows, h3⟩
  generalize findRelations (modelOf mods) w p = rels at hrelq hrelw
  cases rels with
  | nil => simp
  | cons r0 rs0 =>
    dsimp only
    have hq : ∀ (rels : List (Relation W)) (mult : Bool) (acc : List (List Value)), (∀ r ∈ rels, r ∈ r0 :: rs0) →
        queryRelations (solverAt (modelOf mods) n) mult args b (dbValues args b) rels acc w ≠ .oof ∧
        ∀ w1 o, queryRelations (solverAt (modelOf mods) n) mult args b (dbValues args b) rels acc w = .ok w1 o → w1 = w := by
      intro rels
      induction rels with
      | nil =>
        intro mult acc _
        refine ⟨by simp [queryRelations], fun w1 o h => ?_⟩
        simp only [queryRelations, M.pure_run, Res.ok.injEq] at h
        exact h.1.symm
      | cons r rels ihr =>
        intro mult acc hsub
        simp only [queryRelations]
        rw [M.bind_run]
        cases hr1 : r.query (dbValues args b) ⟨r.predicate, r.columns, args, b, solverAt (modelOf mods) n⟩ w with
        | oof => exact absurd hr1 (hrelq r (hsub r (by simp)))
        | err => simp
        | ok w1 o =>
          obtain ⟨rfl, rows, rfl⟩ := hrelw r (hsub r (by simp)) w1 o hr1
          dsimp only
          exact ihr mult _ fun r hr => hsub r (List.mem_cons_of_mem _ hr)
    cases hqr : queryRelations (solverAt (modelOf mods) n) (decide (0 < rs0.length)) args b (dbValues args b) (r0 :: rs0) [] w with
    | oof => exact absurd hqr (hq _ _ _ fun _ h => h).1
    | err => simp
    | ok w1 o => exact resultsOf_fin b args o w1

end

end Verif

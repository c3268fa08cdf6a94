import Verif.DatalogLemmas

/-!
# The solver computes the consequences of a program: main induction
-/

namespace Verif

variable {W : Type}

theorem extendRow_total {b : Binding} {args row : List Value} (hl : row.length = args.length) (result : Binding) (c : Bool) :
    ∃ r, extendRow b args row result c = .ok r := by
  induction args generalizing row result c with
  | nil => exact ⟨_, by simp only [extendRow]; rfl⟩
  | cons a args ih =>
    cases row with
    | nil => simp at hl
    | cons v row =>
      have hl' : row.length = args.length := by simpa using hl
      cases ha : a.isVar with
      | false => rw [extendRow_cons_const b a ha]; exact ih hl' _ _
      | true =>
        cases a <;> simp only [Value.isVar, Bool.false_eq_true] at ha
        rw [extendRow_cons_var]
        split
        · exact ih hl' _ _
        · exact ih hl' _ _

theorem createResults_total {b : Binding} {args : List Value} {rows : List (List Value)}
    (h : ∀ row ∈ rows, row.length = args.length) : ∃ bs, createResults b args rows = .ok bs := by
  induction rows with
  | nil => exact ⟨[], rfl⟩
  | cons row rows ih =>
    obtain ⟨⟨r, c⟩, hr⟩ := extendRow_total (b := b) (h row (by simp)) b false
    obtain ⟨bs, hbs⟩ := ih (fun row hr => h row (List.mem_cons_of_mem _ hr))
    exact ⟨_, by simp only [createResults, hr, hbs]; rfl⟩

/-- Each relation answers with rows and leaves the world alone, or does not finish. -/
theorem queryRelations_steps {api : SolverApi W} {mult : Bool} {args : List Value} {b : Binding} {db : List Value}
    {w : W} {Q : Relation W → List (List Value) → Prop} {rels : List (Relation W)}
    (h : ∀ r ∈ rels,
      r.query db { predicate := r.predicate, columns := r.columns, arguments := args, binding := b, solver := api } w = .oof ∨
      ∃ rows, r.query db { predicate := r.predicate, columns := r.columns, arguments := args, binding := b, solver := api } w
        = .ok w (.rows rows) ∧ Q r rows) (acc : List (List Value)) :
    queryRelations api mult args b db rels acc w = .oof ∨ ∃ outs, RunsAll api args b db rels w w outs ∧
      (∀ rows ∈ outs, ∃ r ∈ rels, Q r rows) ∧ (∀ r ∈ rels, ∃ rows ∈ outs, Q r rows) := by
  induction rels generalizing acc with
  | nil => exact .inr ⟨[], .nil _, by simp, by simp⟩
  | cons r rels ih =>
    simp only [queryRelations]
    rcases h r (by simp) with h1 | ⟨rows, h1, h2⟩
    · left; rw [M.bind_run, h1]
    · rw [M.bind_ok h1]
      rcases ih (fun r hr => h r (List.mem_cons_of_mem _ hr)) (acc ++ dedupRows (acc.map strRow) rows) with
        h3 | ⟨outs, h3, h4, h5⟩
      · exact .inl h3
      · refine .inr ⟨rows :: outs, .cons _ _ _ _ _ _ _ h1 h3, ?_, ?_⟩
        · intro rows' hr
          rcases List.mem_cons.1 hr with rfl | hr
          · exact ⟨r, by simp, h2⟩
          · obtain ⟨r', hr', hq⟩ := h4 rows' hr
            exact ⟨r', List.mem_cons_of_mem _ hr', hq⟩
        · intro r' hr
          rcases List.mem_cons.1 hr with rfl | hr
          · exact ⟨rows, by simp, h2⟩
          · obtain ⟨rows', hr', hq⟩ := h5 r' hr
            exact ⟨rows', List.mem_cons_of_mem _ hr', hq⟩

theorem createResults_noDup {b : Binding} {args : List Value} {rows : List (List Value)} {bs : List Binding}
    (hok : ∀ row ∈ rows, RowOk b args row) (hnd : rows.Nodup) (h : createResults b args rows = .ok bs) : NoDup bs := by
  induction rows generalizing bs with
  | nil => simp only [createResults, Except.ok.injEq] at h; subst h; exact List.Pairwise.nil
  | cons row rows ih =>
    simp only [createResults] at h
    split at h
    · simp at h
    · rename_i result conflict hrow
      split at h
      · simp at h
      · rename_i rest hrest
        simp only [Except.ok.injEq] at h
        subst h
        have ih := ih (fun r hr => hok r (List.mem_cons_of_mem _ hr)) (List.nodup_cons.1 hnd).2 hrest
        cases conflict
        · simp only [Bool.false_eq_true, if_false]
          refine List.Pairwise.cons ?_ ih
          intro b2 hb2 hs
          obtain ⟨row2, hr2, he2⟩ := (createResults_mem hrest).1 hb2
          have h1 := (extendRow_sound (hok row (by simp)) (Extends.refl _) hrow).2.2.2.2
          have h2 := (extendRow_sound (hok row2 (List.mem_cons_of_mem _ hr2)) (Extends.refl _) he2).2.2.2.2
          let σ : Assignment := fun x => (result.get x).getD .none
          have e1 := h1 σ (fun x v hx => by simp [σ, hx])
          have e2 := h2 σ (fun x v hx => by rw [← hs] at hx; simp [σ, hx])
          exact (List.nodup_cons.1 hnd).1 (by rw [← e1, e2]; exact hr2)
        · simpa using ih

/-- All answers are consequences and complete assignments of the query's variables. -/
def SoundB (P : Program) (q : Query) (b : Binding) (bs : List Binding) : Prop :=
  ∀ b' ∈ bs, PlainB b' ∧ Extends b b' ∧ (∀ x, b'.has x = true ↔ b.has x = true ∨ x ∈ queryVars q) ∧
    ∀ σ, Agrees σ b' → ∀ a ∈ q, Derivable P a.1 (a.2.map (inst σ))

/-- All consequences are among the answers. -/
def CompleteB (P : Program) (q : Query) (b : Binding) (bs : List Binding) : Prop :=
  ∀ σ : Assignment, (∀ x, Plain (σ x)) → Agrees σ b → (∀ a ∈ q, Derivable P a.1 (a.2.map (inst σ))) → ∃ b' ∈ bs, Agrees σ b'

/-- The run does not finish, or leaves the world alone and gives exactly the right answers. -/
def Good (P : Program) (q : Query) (b : Binding) (w : W) (r : Res W SolOut) : Prop :=
  r = .oof ∨ ∃ bs, r = .ok w (.rows bs) ∧ SoundB P q b bs ∧ NoDup bs ∧ (RangeRestricted P → CompleteB P q b bs)

section
variable {mods : List (Module W)} {l : W → InfState} {w : W} {ar : String → Option Nat}

/-- What one relation contributes. -/
def RelOk (P : Program) (p : String) (args : List Value) (b : Binding) (fs : List Value → Prop)
    (rl : List Value → Query → Prop) (rows : List (List Value)) : Prop :=
  (∀ row ∈ rows, RowOk b args row ∧ Derivable P p row) ∧
  (RangeRestricted P → ∀ σ : Assignment, (∀ x, Plain (σ x)) → Agrees σ b →
    (fs (args.map (inst σ)) → args.map (inst σ) ∈ rows) ∧
    (∀ hargs body τ, rl hargs body → (∀ x, Plain (τ x)) → (∀ a ∈ body, Derivable P a.1 (a.2.map (inst τ))) →
      hargs.map (inst τ) = args.map (inst σ) → args.map (inst σ) ∈ rows))

theorem map_inst_congr {σ τ : Assignment} {args : List Value} (h : ∀ x, Value.var x ∈ args → σ x = τ x) :
    args.map (inst σ) = args.map (inst τ) := by
  apply List.map_congr_left
  intro a ha
  cases a <;> simp only [inst]
  exact h _ ha

theorem ite_bind {α β : Type} {c : Prop} [Decidable c] (x y : M W α) (f : α → M W β) :
    (if c then x >>= f else y >>= f) = (if c then x else y) >>= f := by
  split <;> rfl

theorem solveRule_good {P : Program} {p : String} {args hargs : List Value} {body : Query} {b : Binding}
    {solver : SolverApi W} (hrule : P.rules p hargs body)
    (hsolve : ∀ b, PlainB b → Good P body b w (solver.solve (toQuery body) b w))
    (hb : PlainB b) (hargsOk : ArgsOk args) (hhargs : ArgsOk hargs) (hl : hargs.length = args.length) :
    solveRule { head := .str p :: hargs, body := toQuery body } args solver b w = .oof ∨
    ∃ rows, solveRule { head := .str p :: hargs, body := toQuery body } args solver b w = .ok w rows ∧
      (∀ row ∈ rows, RowOk b args row ∧ Derivable P p row) ∧
      (RangeRestricted P → ∀ σ : Assignment, (∀ x, Plain (σ x)) → Agrees σ b →
        ∀ τ : Assignment, (∀ x, Plain (τ x)) → (∀ a ∈ body, Derivable P a.1 (a.2.map (inst τ))) →
        hargs.map (inst τ) = args.map (inst σ) → args.map (inst σ) ∈ rows) := by
  have hvars : ∀ x, (Value.var x ∈ hargs ∨ ∃ a ∈ body, Value.var x ∈ a.2) →
      x ∈ Rule.variables { head := .str p :: hargs, body := toQuery body } := by
    intro x hx
    simp only [Rule.variables, List.mem_append, mem_varsOfList, toQuery, varsOf, List.mem_map]
    rcases hx with hx | ⟨a, ha, hx⟩
    · exact .inl ⟨.var x, List.mem_cons_of_mem _ hx, by simp [varsOf]⟩
    · refine .inr ⟨toAtom a, ⟨a, ha, rfl⟩, ?_⟩
      simp only [toAtom, varsOf, mem_varsOfList]
      exact ⟨.var x, List.mem_cons_of_mem _ hx, by simp [varsOf]⟩
  generalize hvs : Rule.variables { head := .str p :: hargs, body := toQuery body } = vs at hvars
  have hwb : PlainB (b.without vs) := by
    intro x v hx
    rw [Dict.get_without] at hx
    split at hx
    · simp at hx
    · exact hb x v hx
  unfold solveRule
  simp only [List.tail_cons, hvs]
  have hcomb : ∀ σ τ : Assignment, (∀ x, Plain (σ x)) → (∀ x, Plain (τ x)) → Agrees σ b →
      ∃ τ' : Assignment, (∀ x, Plain (τ' x)) ∧ Agrees τ' (b.without vs) ∧
        hargs.map (inst τ') = hargs.map (inst τ) ∧ ∀ a ∈ body, a.2.map (inst τ') = a.2.map (inst τ) := by
    intro σ τ hσp hτp hσ
    refine ⟨fun x => if x ∈ vs then τ x else σ x, ?_, ?_, ?_, ?_⟩
    · intro x; dsimp only; split
      · exact hτp x
      · exact hσp x
    · intro x v hx
      rw [Dict.get_without] at hx
      split at hx
      · simp at hx
      · rename_i hn
        have hn' : x ∉ vs := by simpa using hn
        simp only [hn', if_false]
        exact hσ x v hx
    · exact map_inst_congr fun x hx => by simp [hvars x (.inl hx)]
    · intro a ha
      exact map_inst_congr fun x hx => by simp [hvars x (.inr ⟨a, ha, hx⟩)]
  cases hbh : bindHead b hargs args (b.without vs) with
  | none =>
    refine .inr ⟨[], rfl, by simp, ?_⟩
    intro _ σ hσp hσ τ hτp _ heq
    obtain ⟨τ', h1, h2, h3, h4⟩ := hcomb σ τ hσp hτp hσ
    obtain ⟨rb', h5, _⟩ := bindHead_complete hb hargsOk hσ h2 (h3.trans heq)
    rw [hbh] at h5; simp at h5
  | some rb =>
    obtain ⟨_, hrb, hho⟩ := bindHead_sound hb hargsOk hwb hbh
    dsimp only
    have hrun : (if emptyBody (toQuery body) = true then (pure (.rows [rb]) : M W SolOut) else solver.solve (toQuery body) rb) w
        = .oof ∨ ∃ bs, (if emptyBody (toQuery body) = true then (pure (.rows [rb]) : M W SolOut)
          else solver.solve (toQuery body) rb) w = .ok w (.rows bs) ∧ SoundB P body rb bs ∧
          (RangeRestricted P → CompleteB P body rb bs) := by
      cases body with
      | nil =>
        refine .inr ⟨[rb], by simp [toQuery, emptyBody], ?_, ?_⟩
        · intro b' hb'
          simp only [List.mem_singleton] at hb'
          subst hb'
          exact ⟨hrb, Extends.refl _, by simp [queryVars], by simp⟩
        · intro _ σ _ hσ _; exact ⟨rb, by simp, hσ⟩
      | cons a body =>
        have : emptyBody (toQuery (a :: body)) = false := rfl
        simp only [this, Bool.false_eq_true, if_false]
        rcases hsolve rb hrb with h | ⟨bs, h1, h2, _, h3⟩
        · exact .inl h
        · exact .inr ⟨bs, h1, h2, h3⟩
    rw [ite_bind]
    rcases hrun with hrun | ⟨bs, hrun, hsound, hcomp⟩
    · left; rw [M.bind_run, hrun]
    · right
      rw [M.bind_ok hrun]
      refine ⟨(headRows hargs args bs).getD [], by rfl, ?_, ?_⟩
      · intro row hrow
        cases hhr : headRows hargs args bs with
        | none => rw [hhr] at hrow; simp at hrow
        | some rows =>
          rw [hhr] at hrow
          obtain ⟨s, hs, hsr⟩ := (headRows_some hhr row).1 hrow
          obtain ⟨hps, hes, _, hds⟩ := hsound s hs
          obtain ⟨h1, h2⟩ := headRow_sound hps hhargs hargsOk hl (hho.mono hes) hsr
          refine ⟨h1, ?_⟩
          let σ : Assignment := fun x => (s.get x).getD (.num 0)
          have hσ : Agrees σ s := fun x v hx => by simp [σ, hx]
          have hσp : ∀ x, Plain (σ x) := by
            intro x
            simp only [σ]
            cases hx : s.get x with
            | none => exact ⟨by simp, rfl, rfl⟩
            | some v => exact hps x v hx
          rw [← h2 σ hσ]
          exact .rule σ hrule hσp (hds σ hσ)
      · intro hrr σ hσp hσ τ hτp hbody heq
        obtain ⟨τ', h1, h2, h3, h4⟩ := hcomb σ τ hσp hτp hσ
        obtain ⟨rb', h5, h6⟩ := bindHead_complete hb hargsOk hσ h2 (h3.trans heq)
        rw [hbh] at h5
        cases h5
        obtain ⟨s, hs, hsτ⟩ := hcomp hrr τ' h1 h6 (fun a ha => by rw [h4 a ha]; exact hbody a ha)
        have htot : ∀ s ∈ bs, ∃ row, headRow s hargs args = some row := by
          intro s hs
          refine headRow_total fun x hx => ?_
          exact ((hsound s hs).2.2.1 x).2 (.inr (hrr p hargs body hrule x hx))
        obtain ⟨rows, hrows⟩ := headRows_total htot
        obtain ⟨row, hrow⟩ := htot s hs
        obtain ⟨hps, hes, _, _⟩ := hsound s hs
        have hrow' := (headRow_sound hps hhargs hargsOk hl (hho.mono hes) hrow).2 τ' hsτ
        rw [hrows, ← heq, ← h3, hrow']
        exact (headRows_some hrows row).2 ⟨s, hs, hrow⟩

theorem solveRules_good {P : Program} {p : String} {args : List Value} {b : Binding} {solver : SolverApi W}
    {rs : List Rule} (hrs : ∀ r ∈ rs, ∃ hargs body, r = { head := .str p :: hargs, body := toQuery body } ∧
      hargs.length = args.length ∧ ArgsOk hargs ∧ P.rules p hargs body ∧
      ∀ b, PlainB b → Good P body b w (solver.solve (toQuery body) b w))
    (hb : PlainB b) (hargsOk : ArgsOk args) (acc : List (List Value)) (hacc : ∀ row ∈ acc, RowOk b args row ∧ Derivable P p row) :
    solveRules args solver b rs acc w = .oof ∨
    ∃ rows, solveRules args solver b rs acc w = .ok w rows ∧ (∀ row ∈ acc, row ∈ rows) ∧
      (∀ row ∈ rows, RowOk b args row ∧ Derivable P p row) ∧
      (RangeRestricted P → ∀ σ : Assignment, (∀ x, Plain (σ x)) → Agrees σ b →
        ∀ hargs body, { head := .str p :: hargs, body := toQuery body } ∈ rs →
        ∀ τ : Assignment, (∀ x, Plain (τ x)) → (∀ a ∈ body, Derivable P a.1 (a.2.map (inst τ))) →
        hargs.map (inst τ) = args.map (inst σ) → args.map (inst σ) ∈ rows) := by
  induction rs generalizing acc with
  | nil => exact .inr ⟨acc, rfl, fun _ h => h, hacc, by simp⟩
  | cons r rs ih =>
    obtain ⟨hargs, body, rfl, hl, hha, hru, hso⟩ := hrs r (by simp)
    simp only [solveRules]
    rcases solveRule_good hru hso hb hargsOk hha hl with h | ⟨rows, h1, h2, h3⟩
    · left; rw [M.bind_run, h]
    · rw [M.bind_ok h1]
      rcases ih (fun r hr => hrs r (List.mem_cons_of_mem _ hr)) (acc ++ rows) (by
        intro row hr
        rcases List.mem_append.1 hr with hr | hr
        · exact hacc row hr
        · exact h2 row hr) with h | ⟨rows', h4, h5, h6, h7⟩
      · exact .inl h
      · refine .inr ⟨rows', h4, fun row hr => h5 row (List.mem_append_left _ hr), h6, ?_⟩
        intro hrr σ hσp hσ hargs' body' hmem τ hτp hbody heq
        rcases List.mem_cons.1 hmem with e | hmem
        · simp only [Rule.mk.injEq, List.cons.injEq, true_and] at e
          obtain ⟨rfl, hbq⟩ := e
          have hbq' : body' = body := by
            simp only [toQuery, Value.list.injEq] at hbq
            refine (List.map_inj_right ?_).1 hbq
            rintro ⟨p1, a1⟩ ⟨p2, a2⟩ h
            simpa [toAtom] using h
          subst hbq'
          exact h5 _ (List.mem_append_right _ (h3 hrr σ hσp hσ τ hτp hbody heq))
        · exact h7 hrr σ hσp hσ hargs' body' hmem τ hτp hbody heq

theorem legalList_of_rowOk {b : Binding} {args row : List Value} (h : RowOk b args row) : legalList row = true := by
  induction args generalizing row with
  | nil => cases row <;> simp_all [RowOk, legalList]
  | cons a args ih =>
    cases row with
    | nil => simp [RowOk] at h
    | cons v row => simp [legalList, h.1.2.2, ih h.2.2]

theorem TableLike.unique {r : Relation W} {w : W} {rows rows' : List (List Value)} (h : TableLike r w rows)
    (h' : TableLike r w rows') : rows = rows' := by
  have hq := h [] ⟨"", [], [], [], ⟨fun _ _ => M.oof, fun _ => M.oof⟩⟩
  rw [h'] at hq
  simp only [Res.ok.injEq, QOut.rows.injEq, true_and] at hq
  have hall : ∀ rs : List (List Value), rs.filter (rowMatches []) = rs := fun rs => List.filter_eq_self.2 fun _ _ => rfl
  rw [hall, hall] at hq
  exact hq.symm

theorem solveSingle_good (hwf : WellFormed mods l w ar) {api : SolverApi W}
    (hapi : ∀ q b, QueryOk ar q → PlainB b → Good (programOf mods l w) q b w (api.solve (toQuery q) b w))
    {p : String} {args : List Value} (hp : ar p = some args.length) (hargs : ArgsOk args) {b : Binding} (hb : PlainB b) :
    Good (programOf mods l w) [(p, args)] b w (solveSingle api mods (toAtom (p, args)) b w) := by
  have hnd : p ≠ "$disjunction" := by
    rintro rfl; rw [hwf.noDisj] at hp; simp at hp
  unfold Good
  simp only [toAtom, solveSingle_tuple, solveSingle.go, hnd, if_false, findRelationValues]
  rw [M.bind_run, M.bind_run]
  simp only [M.gets_run]
  have hdef := hwf.defined p _ hp
  have hrel : ∀ r ∈ findRelations mods w p,
      r.query (dbValues args b) { predicate := r.predicate, columns := r.columns, arguments := args, binding := b, solver := api } w
        = .oof ∨
      ∃ rows, r.query (dbValues args b)
          { predicate := r.predicate, columns := r.columns, arguments := args, binding := b, solver := api } w
        = .ok w (.rows rows) ∧ RelOk (programOf mods l w) p args b
          (fun row => ∃ rows, TableLike r w rows ∧ row ∈ rows)
          (fun hargs body => r = ruleRelation l p ∧ (programOf mods l w).rules p hargs body) rows := by
    intro r hr
    rcases hwf.kinds p _ hp r hr with ⟨rows, htl⟩ | rfl
    · refine .inr ⟨rows.filter (rowMatches (dbValues args b)), htl _ _, ?_, ?_⟩
      · intro row hrow
        rw [List.mem_filter] at hrow
        obtain ⟨h1, h2⟩ := hwf.factsOk p _ hp r hr rows htl row hrow.1
        exact ⟨rowOk_of_matches hb h1 h2 hrow.2, .fact ⟨r, hr, rows, htl, hrow.1⟩⟩
      · intro hrr σ hσp hσ
        refine ⟨?_, ?_⟩
        · rintro ⟨rows', heq, hrow⟩
          rw [List.mem_filter]
          refine ⟨?_, matches_of_agrees hσ⟩
          rw [htl.unique heq]; exact hrow
        · rintro hargs' body τ ⟨heq, hru⟩ hτp hbody hτσ
          have hru' := hru
          obtain ⟨hmem, rs, hrs, hr'⟩ := hru
          rw [List.mem_filter]
          refine ⟨?_, matches_of_agrees hσ⟩
          -- the two kinds of relation coincide: compare on a world-independent call
          subst heq
          have hq := htl [] ⟨p, [], args, b, api⟩
          obtain ⟨rs', hrs'⟩ := hwf.rulesSome p _ hp hmem
          have hgood := solveRules_good (w := w) (P := programOf mods l w) (p := p) (args := args) (b := b) (solver := api)
            (rs := rs) (by
              intro r hr
              obtain ⟨hargs'', body'', e, h1, h2, h3⟩ := hwf.rulesOk p _ hp rs hrs r hr
              exact ⟨hargs'', body'', e, h1, h2, ⟨hmem, rs, hrs, e ▸ hr⟩, fun b hb => hapi body'' b h3 hb⟩) hb hargs [] (by simp)
          simp only [ruleRelation, handleRule] at hq
          rw [M.bind_run] at hq
          simp only [M.gets_run, hrs] at hq
          rw [M.bind_run] at hq
          rcases hgood with hg | ⟨rows2, hg, _, _, hg2⟩
          · rw [hg] at hq; simp at hq
          · rw [hg] at hq
            simp only [M.pure_run, Res.ok.injEq, QOut.rows.injEq, true_and] at hq
            have := hg2 hrr σ hσp hσ hargs' body hr' τ hτp hbody hτσ
            rw [hq, List.mem_filter] at this
            exact this.1
    · obtain ⟨rs, hrs⟩ := hwf.rulesSome p _ hp hr
      have hgood := solveRules_good (w := w) (P := programOf mods l w) (p := p) (args := args) (b := b) (solver := api)
        (rs := rs) (by
          intro r hr2
          obtain ⟨hargs'', body'', e, h1, h2, h3⟩ := hwf.rulesOk p _ hp rs hrs r hr2
          exact ⟨hargs'', body'', e, h1, h2, ⟨hr, rs, hrs, e ▸ hr2⟩, fun b hb => hapi body'' b h3 hb⟩) hb hargs [] (by simp)
      have hrun : (ruleRelation l p).query (dbValues args b) ⟨(ruleRelation l p).predicate, (ruleRelation l p).columns, args, b, api⟩ w =
          (match solveRules args api b rs [] w with
            | .ok w' rows => .ok w' (.rows rows)
            | .err w' e => .err w' e
            | .oof => .oof) := by
        simp only [ruleRelation, handleRule]
        rw [M.bind_run]
        simp only [M.gets_run, hrs]
        rw [M.bind_run]
        cases solveRules args api b rs [] w <;> rfl
      rw [hrun]
      rcases hgood with hg | ⟨rows, hg, _, hg1, hg2⟩
      · left; rw [hg]
      · right
        rw [hg]
        refine ⟨rows, rfl, hg1, ?_⟩
        intro hrr σ hσp hσ
        refine ⟨?_, ?_⟩
        · rintro ⟨rows', heq, hrow⟩
          have hq := heq (dbValues args b) ⟨p, [], args, b, api⟩
          have hrun' : (ruleRelation l p).query (dbValues args b) ⟨p, [], args, b, api⟩ w = .ok w (.rows rows) := by
            have := hrun
            rw [hg] at this
            exact this
          rw [hrun'] at hq
          simp only [Res.ok.injEq, QOut.rows.injEq, true_and] at hq
          rw [hq, List.mem_filter]
          exact ⟨hrow, matches_of_agrees hσ⟩
        · rintro hargs' body τ ⟨_, _, rs', hrs', hmem⟩ hτp hbody heq
          rw [hrs] at hrs'
          cases hrs'
          exact hg2 hrr σ hσp hσ hargs' body hmem τ hτp hbody heq
  generalize hrels : findRelations mods w p = rels at hdef hrel
  cases rels with
  | nil => simp at hdef
  | cons r0 rs0 =>
    dsimp only
    rcases queryRelations_steps (mult := decide (0 < rs0.length)) hrel [] with h | ⟨outs, h1, h2, h3⟩
    · left; rw [h]
    · right
      rw [queryRelations_run h1]
      simp only [List.map_nil, List.nil_append]
      have hrows : ∀ row ∈ outs.flatten, RowOk b args row ∧ Derivable (programOf mods l w) p row := by
        intro row hrow
        obtain ⟨rows, hr, hrow⟩ := List.mem_flatten.1 hrow
        obtain ⟨r, _, hq⟩ := h2 rows hr
        exact hq.1 row hrow
      have hleg : ∀ row ∈ outs.flatten, legalList row = true := fun row hr => legalList_of_rowOk (hrows row hr).1
      have hmem := mem_dedupRows hleg
      have hnodup : (dedupRows [] outs.flatten).Nodup := by
        have := dedupRows_nodup [] outs.flatten
        exact List.Pairwise.of_map strRow (fun a b h e => h (e ▸ rfl)) this
      generalize hd : dedupRows [] outs.flatten = rows at hmem hnodup
      obtain ⟨bs, hbs⟩ := createResults_total (b := b) (args := args) (rows := rows) (fun row hr =>
        (hrows row ((hmem row).1 hr)).1.length)
      refine ⟨bs, ?_, ?_, ?_, ?_⟩
      · cases rows with
        | nil =>
          simp only [createResults, Except.ok.injEq] at hbs
          subst hbs; rfl
        | cons row rows =>
          have := (hrows row ((hmem row).1 (by simp))).1.length
          simp only [resultsOf, this, ne_eq, not_true, if_false, hbs, Except.map, M.lift]
          rfl
      · intro b' hb'
        obtain ⟨row, hrow, he⟩ := (createResults_mem hbs).1 hb'
        obtain ⟨hro, hder⟩ := hrows row ((hmem row).1 hrow)
        obtain ⟨_, h5, h6, h7, h8⟩ := extendRow_sound hro (Extends.refl _) he
        refine ⟨h7 hb, h5, ?_, ?_⟩
        · intro x; rw [h6, mem_queryVars]; simp
        · intro σ hσ a ha
          simp only [List.mem_singleton] at ha
          subst ha
          dsimp only
          rw [h8 σ hσ]; exact hder
      · exact createResults_noDup (fun row hr => (hrows row ((hmem row).1 hr)).1) hnodup hbs
      · intro hrr σ hσp hσ hder
        have hder := hder (p, args) (by simp)
        dsimp only at hder
        have hin : args.map (inst σ) ∈ rows := by
          rw [hmem]
          have hcase : (∃ r ∈ r0 :: rs0, ∃ rows, TableLike r w rows ∧ args.map (inst σ) ∈ rows) ∨
              ∃ r ∈ r0 :: rs0, ∃ hargs body τ, (r = ruleRelation l p ∧ (programOf mods l w).rules p hargs body) ∧
                (∀ x, Plain (τ x)) ∧ (∀ a ∈ body, Derivable (programOf mods l w) a.1 (a.2.map (inst τ))) ∧
                hargs.map (inst τ) = args.map (inst σ) := by
            generalize args.map (inst σ) = row at hder
            cases hder with
            | fact hf =>
              obtain ⟨r, hm, rows', htl, hrow⟩ := hf
              rw [hrels] at hm
              exact .inl ⟨r, hm, rows', htl, hrow⟩
            | rule τ hru hτp hbody =>
              refine .inr ⟨_, hrels ▸ hru.1, _, _, τ, ⟨rfl, hru⟩, hτp, hbody, rfl⟩
          rcases hcase with ⟨r, hr, rows', e, hrow⟩ | ⟨r, hr, hargs', body, τ, hru, hτp, hbody, heq⟩
          · obtain ⟨rows, hro, hq⟩ := h3 r hr
            exact List.mem_flatten.2 ⟨rows, hro, (hq.2 hrr σ hσp hσ).1 ⟨rows', e, hrow⟩⟩
          · obtain ⟨rows, hro, hq⟩ := h3 r hr
            exact List.mem_flatten.2 ⟨rows, hro, (hq.2 hrr σ hσp hσ).2 hargs' body τ hru hτp hbody heq⟩
        obtain ⟨b', hb', hag⟩ := extendRow_complete (b := b) (args := args) hσ (Extends.refl _)
        exact ⟨b', (createResults_mem hbs).2 ⟨_, hin, hb'⟩, hag⟩

end

theorem collect_steps {f : Binding → M W SolOut} {w : W} {bs : List Binding}
    (h : ∀ b ∈ bs, f b w = .oof ∨ ∃ rs, f b w = .ok w (.rows rs)) (acc : List Binding) :
    collect f bs acc w = .oof ∨ ∃ out, collect f bs acc w = .ok w (.rows out) ∧ (∀ r ∈ acc, r ∈ out) ∧
      (∀ r ∈ out, r ∈ acc ∨ ∃ b ∈ bs, ∃ rs, f b w = .ok w (.rows rs) ∧ r ∈ rs) ∧
      (∀ b ∈ bs, ∃ rs, f b w = .ok w (.rows rs) ∧ ∀ r ∈ rs, ∃ r' ∈ out, SameDict r' r) := by
  induction bs generalizing acc with
  | nil => exact .inr ⟨acc, rfl, fun _ h => h, fun r h => .inl h, by simp⟩
  | cons b bs ih =>
    simp only [collect]
    rcases h b (by simp) with h1 | ⟨rs, h1⟩
    · left; rw [M.bind_run, h1]
    · rw [M.bind_ok h1]
      rcases ih (fun b hb => h b (List.mem_cons_of_mem _ hb)) (rs.foldl addNew acc) with h2 | ⟨out, h2, h3, h4, h5⟩
      · exact .inl h2
      · refine .inr ⟨out, h2, fun r hr => h3 r (mem_foldl_addNew_of_mem hr), ?_, ?_⟩
        · intro r hr
          rcases h4 r hr with h6 | ⟨b', hb', x⟩
          · rcases mem_foldl_addNew h6 with h6 | h6
            · exact .inl h6
            · exact .inr ⟨b, by simp, rs, h1, h6⟩
          · exact .inr ⟨b', List.mem_cons_of_mem _ hb', x⟩
        · intro b' hb'
          rcases List.mem_cons.1 hb' with rfl | hb'
          · refine ⟨rs, h1, fun r hr => ?_⟩
            obtain ⟨r', hr', hs⟩ := foldl_addNew_covers (acc := acc) hr
            exact ⟨r', h3 r' hr', hs⟩
          · exact h5 b' hb'

section
variable {mods : List (Module W)} {l : W → InfState} {w : W} {ar : String → Option Nat}

theorem solveAtoms_good (hwf : WellFormed mods l w ar) {api : SolverApi W}
    (hapi : ∀ q b, QueryOk ar q → PlainB b → Good (programOf mods l w) q b w (api.solve (toQuery q) b w))
    {q : Query} (hq : QueryOk ar q) {b : Binding} (hb : PlainB b) :
    Good (programOf mods l w) q b w (solveAtoms api mods (q.map toAtom) b w) := by
  induction q generalizing b with
  | nil =>
    refine .inr ⟨[b], rfl, ?_, by simp [NoDup], ?_⟩
    · intro b' hb'
      simp only [List.mem_singleton] at hb'
      subst hb'
      exact ⟨hb, Extends.refl _, by simp [queryVars], by simp⟩
    · intro _ σ _ hσ _; exact ⟨b, by simp, hσ⟩
  | cons a q ih =>
    obtain ⟨p, args⟩ := a
    have h1 := solveSingle_good hwf hapi (hq (p, args) (by simp)).1 (hq (p, args) (by simp)).2 hb
    cases q with
    | nil => exact h1
    | cons a2 rest =>
      have hq' : QueryOk ar (a2 :: rest) := fun a ha => hq a (List.mem_cons_of_mem _ ha)
      have ih := fun {b} (hb : PlainB b) => ih hq' hb
      simp only [List.map_cons, solveAtoms]
      unfold Good
      rw [M.bind_run]
      rcases h1 with h1 | ⟨bs, h1, hs1, _, hc1⟩
      · left; rw [h1]
      · rw [h1]
        dsimp only
        have ih' : ∀ b ∈ bs, Good (programOf mods l w) (a2 :: rest) b w (solveAtoms api mods (toAtom a2 :: rest.map toAtom) b w) :=
          fun b hb => ih (hs1 b hb).1
        have hstep : ∀ b ∈ bs, solveAtoms api mods (toAtom a2 :: rest.map toAtom) b w = .oof ∨
            ∃ rs, solveAtoms api mods (toAtom a2 :: rest.map toAtom) b w = .ok w (.rows rs) := by
          intro b hb
          rcases ih' b hb with h | ⟨rs, h, _⟩
          · exact .inl h
          · exact .inr ⟨rs, h⟩
        rcases collect_steps hstep [] with h2 | ⟨out, h2, _, h3, h4⟩
        · exact .inl h2
        · refine .inr ⟨out, h2, ?_, collect_noDup h2 List.Pairwise.nil, ?_⟩
          · intro b'' hb''
            rcases h3 b'' hb'' with h | ⟨b', hb', rs, hrs, hmem⟩
            · simp at h
            · rcases ih' b' hb' with h | ⟨rs', h, hs2, _⟩
              · rw [hrs] at h; simp at h
              · rw [hrs] at h
                simp only [Res.ok.injEq, SolOut.rows.injEq, true_and] at h
                subst h
                obtain ⟨a1, a2', a3, a4⟩ := hs1 b' hb'
                obtain ⟨c1, c2, c3, c4⟩ := hs2 b'' hmem
                refine ⟨c1, a2'.trans c2, ?_, ?_⟩
                · intro x
                  rw [c3, a3, mem_queryVars, mem_queryVars, mem_queryVars]
                  simp only [List.mem_cons, List.not_mem_nil, or_false, exists_eq_left, exists_eq_or_imp]
                  rw [or_assoc]
                · intro σ hσ a ha
                  rcases List.mem_cons.1 ha with rfl | ha
                  · exact a4 σ (hσ.mono c2) _ (by simp)
                  · exact c4 σ hσ a ha
          · intro hrr σ hσp hσ hder
            obtain ⟨b', hb', hag⟩ := hc1 hrr σ hσp hσ (fun a ha => by
              simp only [List.mem_singleton] at ha
              subst ha
              exact hder _ (by simp))
            obtain ⟨rs, hrs, hall⟩ := h4 b' hb'
            rcases ih' b' hb' with h | ⟨rs', h, _, _, hc2⟩
            · rw [hrs] at h; simp at h
            · rw [hrs] at h
              simp only [Res.ok.injEq, SolOut.rows.injEq, true_and] at h
              subst h
              obtain ⟨b'', hb'', hag'⟩ := hc2 hrr σ hσp hag (fun a ha => hder a (List.mem_cons_of_mem _ ha))
              obtain ⟨b3, hb3, hs3⟩ := hall b'' hb''
              exact ⟨b3, hb3, fun x v hx => hag' x v (by rw [← hs3]; exact hx)⟩

theorem solve_good (hwf : WellFormed mods l w ar) (n : Nat) {q : Query} (hq : QueryOk ar q) {b : Binding} (hb : PlainB b) :
    Good (programOf mods l w) q b w ((solverAt mods n).solve (toQuery q) b w) := by
  induction n generalizing q b with
  | zero => exact .inl rfl
  | succ n ih => exact solveAtoms_good hwf (fun q b hq hb => ih hq hb) hq hb

end

end Verif

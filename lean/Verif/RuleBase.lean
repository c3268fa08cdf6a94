import Verif.DatalogLevel
import Verif.Core

/-!
# Models made of tables and an inference module with a history of inserted rules
-/

namespace Verif

variable {W : Type}

/-- A Prolog-style rule `p(args) :- body` (specification). -/
structure HornRule where
  pred : String
  args : List Value
  body : Query

/-- The rule as the Python code represents it. -/
def HornRule.toRule (r : HornRule) : Rule := { head := .str r.pred :: r.args, body := toQuery r.body }

/-- Insert rules one after the other. Models the loop of `richard/module/InferenceModule.py:33-40` (`import_rules`) after
parsing, calling `insert_rule` (25-30). -/
def insertAll : List Rule → InfState → Except Err InfState
  | [], s => .ok s
  | r :: rs, s => match insertRule r s with
    | .error e => .error e
    | .ok s' => insertAll rs s'

/-- The predicate of a rule's head, if it is a string (specification). -/
def Rule.pred (r : Rule) : Option String := match r.head with
  | .str p :: _ => some p
  | _ => none

theorem insertRule_ok {r : Rule} {s s' : InfState} (h : insertRule r s = .ok s') :
    ∃ p, r.pred = some p ∧ isWord p = true ∧ s'.relations = s.relations.set p .handleRule ∧
      s'.rules = s.rules.set p ((s.rules.get p).getD [] ++ [r]) := by
  unfold insertRule at h
  split at h
  · simp at h
  · rename_i p _ hp
    split at h
    · simp only [Except.ok.injEq] at h
      subst h
      rename_i hw
      exact ⟨p, by simp [Rule.pred, hp], hw, rfl, rfl⟩
    · simp at h
  · simp at h

/-- The rules kept for each predicate after any history of insertions. -/
theorem insertAll_rules {rs : List Rule} {s s' : InfState} (h : insertAll rs s = .ok s') (p : String) :
    (s'.rules.get p).getD [] = (s.rules.get p).getD [] ++ rs.filter (fun r => decide (r.pred = some p)) ∧
    (s'.rules.has p = true ↔ s.rules.has p = true ∨ ∃ r ∈ rs, r.pred = some p) ∧
    s'.relations.get p = if ∃ r ∈ rs, r.pred = some p then some .handleRule else s.relations.get p := by
  induction rs generalizing s with
  | nil =>
    simp only [insertAll, Except.ok.injEq] at h
    subst h; simp
  | cons r rs ih =>
    simp only [insertAll] at h
    split at h
    · simp at h
    · rename_i s1 h1
      obtain ⟨ih1, ih2, ih3⟩ := ih h
      obtain ⟨q, hq, hw, hrel, hrul⟩ := insertRule_ok h1
      rw [ih1, ih3, hrul, hrel]
      refine ⟨?_, ?_, ?_⟩
      · rw [Dict.get_set]
        by_cases e : q = p
        · subst e; simp [hq]
        · simp [e, hq]
      · rw [ih2, hrul, Dict.has_iff, Dict.has_iff, Dict.get_set]
        by_cases e : q = p
        · subst e; simp [hq]
        · simp [e, hq]
      · rw [Dict.get_set]
        by_cases e : q = p
        · subst e; simp [hq]
        · simp [e, hq]

/-- The program consisting of the rows of some tables and some rules (specification). -/
def program (dbs : List (Dict (List (List Value)))) (rs : List HornRule) : Program where
  facts p row := ∃ db ∈ dbs, ∃ rows, db.get p = some rows ∧ row ∈ rows
  rules p hargs body := { pred := p, args := hargs, body := body } ∈ rs

/-- Conditions on tables and rules: `ar` lists the predicates with their number of arguments; these are neither predicates
of the core module nor `learn_rule`; rows and constants are proper values; rules only use such predicates. -/
structure ProgramOk (W : Type) (ar : String → Option Nat) (dbs : List (Dict (List (List Value)))) (rs : List HornRule) : Prop where
  notReserved : ar "$disjunction" = none ∧ ar "learn_rule" = none ∧ ∀ p f, (coreTable W).get p = some f → ar p = none
  defined : ∀ p k, ar p = some k → (∃ db ∈ dbs, db.has p = true) ∨ ∃ r ∈ rs, r.pred = p
  rowsOk : ∀ p k, ar p = some k → ∀ db ∈ dbs, ∀ rows, db.get p = some rows →
    ∀ row ∈ rows, row.length = k ∧ ∀ v ∈ row, Plain v
  rulesOk : ∀ r ∈ rs, ar r.pred = some r.args.length ∧ ArgsOk r.args ∧ QueryOk ar r.body

theorem toRule_pred (r : HornRule) : r.toRule.pred = some r.pred := rfl

theorem toRule_injective {r r' : HornRule} (h : r.toRule = r'.toRule) : r = r' := by
  obtain ⟨p, a, b⟩ := r
  obtain ⟨p', a', b'⟩ := r'
  simp only [HornRule.toRule, Rule.mk.injEq, List.cons.injEq, Value.str.injEq] at h
  obtain ⟨⟨rfl, rfl⟩, h2⟩ := h
  simp only [toQuery, Value.list.injEq] at h2
  have : b = b' := by
    refine (List.map_inj_right ?_).1 h2
    rintro ⟨p1, a1⟩ ⟨p2, a2⟩ h
    simpa [toAtom] using h
  rw [this]

theorem rule_not_tableLike {g : W → InfState} {p p' : String} {rows : List (List Value)} {w : W}
    (hn : (g w).rules.get p' = none) : ¬ TableLike (ruleRelation g p) w rows := by
  intro h
  have hq := h [] ⟨p', [], [], [], ⟨fun _ _ => M.oof, fun _ => M.oof⟩⟩
  simp only [ruleRelation, handleRule] at hq
  rw [M.bind_run] at hq
  simp [hn] at hq

theorem tableRelation_tableLike (p : String) (rows : List (List Value)) (w : W) : TableLike (tableRelation W p rows) w rows :=
  fun _ _ => rfl

/-- For the predicates in `ar`, the module has in this world a relation exactly for the tables in `db`, and it answers queries from
the rows of the table. -/
def FactModule (ar : String → Option Nat) (w : W) (m : Module W) (db : Dict (List (List Value))) : Prop :=
  ∀ p k, ar p = some k → match db.get p with
    | none => m.relations w p = none
    | some rows => ∃ r, m.relations w p = some r ∧ TableLike r w rows

/-- Module by module. -/
def FactModules (ar : String → Option Nat) (w : W) : List (Module W) → List (Dict (List (List Value))) → Prop
  | [], [] => True
  | m :: ms, db :: dbs => FactModule ar w m db ∧ FactModules ar w ms dbs
  | _, _ => False

theorem tableModule_fact (ar : String → Option Nat) (w : W) (db : Dict (List (List Value))) :
    FactModule ar w (tableModule W db) db := by
  intro p k _
  cases h : db.get p with
  | none => simp [tableModule, h]
  | some rows => exact ⟨tableRelation W p rows, by simp [tableModule, h], tableRelation_tableLike p rows w⟩

theorem tableModules_fact (ar : String → Option Nat) (w : W) (dbs : List (Dict (List (List Value)))) :
    FactModules ar w (dbs.map (tableModule W)) dbs := by
  induction dbs with
  | nil => trivial
  | cons db dbs ih => exact ⟨tableModule_fact ar w db, ih⟩

theorem findRelations_cons (m : Module W) (ms : List (Module W)) (w : W) (p : String) (r : Relation W) :
    r ∈ findRelations (m :: ms) w p ↔ m.relations w p = some r ∨ r ∈ findRelations ms w p := by
  simp only [findRelations, List.filterMap_cons]
  cases m.relations w p <;> simp [eq_comm]

theorem findRelations_append (ms ms' : List (Module W)) (w : W) (p : String) (r : Relation W) :
    r ∈ findRelations (ms ++ ms') w p ↔ r ∈ findRelations ms w p ∨ r ∈ findRelations ms' w p := by
  simp only [findRelations, List.filterMap_append, List.mem_append]

theorem FactModules.mem {ar : String → Option Nat} {w : W} {ms : List (Module W)} {dbs : List (Dict (List (List Value)))}
    (h : FactModules ar w ms dbs) {p : String} {k : Nat} (hp : ar p = some k) :
    (∀ r ∈ findRelations ms w p, ∃ db ∈ dbs, ∃ rows, db.get p = some rows ∧ TableLike r w rows) ∧
    (∀ db ∈ dbs, ∀ rows, db.get p = some rows → ∃ r ∈ findRelations ms w p, TableLike r w rows) := by
  induction ms generalizing dbs with
  | nil => cases dbs <;> simp [FactModules, findRelations] at h ⊢
  | cons m ms ih =>
    cases dbs with
    | nil => simp [FactModules] at h
    | cons db dbs =>
      obtain ⟨h1, h2⟩ := h
      obtain ⟨ih1, ih2⟩ := ih h2
      have h1 := h1 p k hp
      refine ⟨fun r hr => ?_, fun db' hdb rows hrows => ?_⟩
      · rcases (findRelations_cons ..).1 hr with hm | hm
        · split at h1
          · rw [hm] at h1; simp at h1
          · rename_i rows hrows
            obtain ⟨r', e, htl⟩ := h1
            rw [hm] at e
            cases e
            exact ⟨db, by simp, rows, hrows, htl⟩
        · obtain ⟨db', hdb, x⟩ := ih1 r hm
          exact ⟨db', List.mem_cons_of_mem _ hdb, x⟩
      · rcases List.mem_cons.1 hdb with rfl | hdb
        · rw [hrows] at h1
          obtain ⟨r', e, htl⟩ := h1
          exact ⟨r', (findRelations_cons ..).2 (.inl e), htl⟩
        · obtain ⟨r, hr, htl⟩ := ih2 db' hdb rows hrows
          exact ⟨r, (findRelations_cons ..).2 (.inr hr), htl⟩

/-- A model with tables and possibly an inference module. -/
structure Holds (mods : List (Module W)) (g : W → InfState) (w : W) (ar : String → Option Nat)
    (dbs : List (Dict (List (List Value)))) (rs : List HornRule) : Prop where
  mem : ∀ p k, ar p = some k → ∀ r ∈ findRelations mods w p,
    (∃ db ∈ dbs, ∃ rows, db.get p = some rows ∧ TableLike r w rows) ∨ ((∃ r ∈ rs, r.pred = p) ∧ r = ruleRelation g p)
  tables : ∀ p k, ar p = some k → ∀ db ∈ dbs, ∀ rows, db.get p = some rows → ∃ r ∈ findRelations mods w p, TableLike r w rows
  heads : ∀ p k, ar p = some k → (∃ r ∈ rs, r.pred = p) → ruleRelation g p ∈ findRelations mods w p
  rules : ∀ p, (g w).rules.get p = if ∃ r ∈ rs, r.pred = p then
    some ((rs.filter (fun r => decide (r.pred = p))).map HornRule.toRule) else none

theorem holds_wellFormed {mods : List (Module W)} {g : W → InfState} {w : W} {ar : String → Option Nat}
    {dbs : List (Dict (List (List Value)))} {rs : List HornRule} (hok : ProgramOk W ar dbs rs) (h : Holds mods g w ar dbs rs) :
    WellFormed mods g w ar := by
  have hnone : (g w).rules.get "$disjunction" = none := by
    rw [h.rules, if_neg]
    rintro ⟨r, hr, e⟩
    have := (hok.rulesOk r hr).1
    rw [e, hok.notReserved.1] at this
    simp at this
  have hrow : ∀ p k, ar p = some k → ∀ r ∈ findRelations mods w p, ∀ rows, TableLike r w rows →
      ∃ db ∈ dbs, db.get p = some rows := by
    intro p k hp r hm rows htl
    rcases h.mem p k hp _ hm with ⟨db, hdb, rows', h1, h2⟩ | ⟨hr, h2⟩
    · rw [htl.unique h2]; exact ⟨db, hdb, h1⟩
    · subst h2; exact absurd htl (rule_not_tableLike hnone)
  refine ⟨hok.notReserved.1, ?_, ?_, ?_, ?_, ?_⟩
  · intro p k hp
    rcases hok.defined p k hp with ⟨db, hdb, hh⟩ | hr
    · obtain ⟨rows, hrows⟩ := (Dict.has_iff _ _).1 hh
      obtain ⟨r, hr, _⟩ := h.tables p k hp db hdb rows hrows
      exact List.ne_nil_of_mem hr
    · exact List.ne_nil_of_mem (h.heads p k hp hr)
  · intro p k hp r hr
    rcases h.mem p k hp r hr with ⟨db, hdb, rows, _, e⟩ | ⟨_, e⟩
    · exact .inl ⟨rows, e⟩
    · exact .inr e
  · intro p k hp r hm rows htl
    obtain ⟨db, hdb, h1⟩ := hrow p k hp r hm rows htl
    exact hok.rowsOk p k hp db hdb rows h1
  · intro p k hp hm
    rcases h.mem p k hp _ hm with ⟨db, hdb, rows, h1, e⟩ | ⟨hr, _⟩
    · exact absurd e (rule_not_tableLike hnone)
    · exact ⟨_, by rw [h.rules p, if_pos hr]⟩
  · intro p k hp rl hrl r hr
    rw [h.rules p] at hrl
    split at hrl
    · simp only [Option.some.injEq] at hrl
      subst hrl
      simp only [List.mem_map, List.mem_filter, decide_eq_true_eq] at hr
      obtain ⟨hr', ⟨hm, rfl⟩, rfl⟩ := hr
      have := hok.rulesOk hr' hm
      rw [hp] at this
      exact ⟨hr'.args, hr'.body, rfl, by simpa using this.1.symm, this.2⟩
    · simp at hrl

theorem Derivable.mono {P Q : Program} (hf : ∀ p row, P.facts p row → Q.facts p row)
    (hr : ∀ p hargs body, P.rules p hargs body → Q.rules p hargs body) {p : String} {row : List Value}
    (h : Derivable P p row) : Derivable Q p row := by
  induction h with
  | fact h => exact .fact (hf _ _ h)
  | rule σ h hσ _ ih => exact .rule σ (hr _ _ _ h) hσ ih

/-- For predicates of the program, derivability in what the modules hold is derivability from the tables and the rules. -/
theorem holds_derivable {mods : List (Module W)} {g : W → InfState} {w : W} {ar : String → Option Nat}
    {dbs : List (Dict (List (List Value)))} {rs : List HornRule} (hok : ProgramOk W ar dbs rs) (h : Holds mods g w ar dbs rs)
    {p : String} {k : Nat} (hp : ar p = some k) {row : List Value} :
    Derivable (programOf mods g w) p row ↔ Derivable (program dbs rs) p row := by
  have hnone : (g w).rules.get "$disjunction" = none := by
    rw [h.rules, if_neg]
    rintro ⟨r, hr, e⟩
    have := (hok.rulesOk r hr).1
    rw [e, hok.notReserved.1] at this
    simp at this
  have hrules : ∀ p hargs body, (programOf mods g w).rules p hargs body → (program dbs rs).rules p hargs body := by
    rintro p hargs body ⟨_, rl, hrl, hm⟩
    rw [h.rules p] at hrl
    split at hrl
    · simp only [Option.some.injEq] at hrl
      subst hrl
      simp only [List.mem_map, List.mem_filter, decide_eq_true_eq] at hm
      obtain ⟨r', ⟨hm, _⟩, e⟩ := hm
      have : r' = ⟨p, hargs, body⟩ := toRule_injective e
      show _ ∈ rs; rw [← this]; exact hm
    · simp at hrl
  constructor
  · intro hd
    induction hd generalizing k with
    | fact hf =>
      obtain ⟨r, hm, rows, htl, hrow⟩ := hf
      rcases h.mem _ k hp _ hm with ⟨db, hdb, rows', h1, h2⟩ | ⟨_, h2⟩
      · exact .fact ⟨db, hdb, rows', h1, htl.unique h2 ▸ hrow⟩
      · subst h2; exact absurd htl (rule_not_tableLike hnone)
    | rule σ hr hσ _ ih =>
      have hr' := hrules _ _ _ hr
      refine .rule σ hr' hσ fun a ha => ?_
      exact ih a ha ((hok.rulesOk _ hr').2.2 a ha).1
  · intro hd
    induction hd generalizing k with
    | fact hf =>
      obtain ⟨db, hdb, rows, h1, hrow⟩ := hf
      obtain ⟨r, hr, htl⟩ := h.tables _ k hp db hdb rows h1
      exact .fact ⟨r, hr, rows, htl, hrow⟩
    | @rule p hargs body σ hr hσ _ ih =>
      have hex : ∃ r ∈ rs, r.pred = p := ⟨_, hr, rfl⟩
      refine .rule σ ⟨h.heads p k hp hex, _, by rw [h.rules p, if_pos hex], ?_⟩ hσ
        (fun a ha => ih a ha ((hok.rulesOk _ hr).2.2 a ha).1)
      simp only [List.mem_map, List.mem_filter, decide_eq_true_eq]
      exact ⟨⟨p, hargs, body⟩, ⟨hr, rfl⟩, rfl⟩

theorem holds_rules {mods : List (Module W)} {g : W → InfState} {w : W} {ar : String → Option Nat}
    {dbs : List (Dict (List (List Value)))} {rs : List HornRule} (h : Holds mods g w ar dbs rs)
    {p : String} {hargs : List Value} {body : Query} (hr : (programOf mods g w).rules p hargs body) :
    (program dbs rs).rules p hargs body := by
  obtain ⟨_, rl, hrl, hm⟩ := hr
  rw [h.rules p] at hrl
  split at hrl
  · simp only [Option.some.injEq] at hrl
    subst hrl
    simp only [List.mem_map, List.mem_filter, decide_eq_true_eq] at hm
    obtain ⟨r', ⟨hm, _⟩, e⟩ := hm
    have : r' = ⟨p, hargs, body⟩ := toRule_injective e
    show _ ∈ rs; rw [← this]; exact hm
  · simp at hrl

/-- Calls go down in what the modules hold. -/
theorem holds_descend {mods : List (Module W)} {g : W → InfState} {w : W} {ar : String → Option Nat}
    {dbs : List (Dict (List (List Value)))} {rs : List HornRule} (hok : ProgramOk W ar dbs rs) (h : Holds mods g w ar dbs rs)
    {level : String → List Value → Nat} (hd : CallsDescend (program dbs rs) level) : CallsDescend (programOf mods g w) level := by
  intro p hargs body hr values σ hσ hc pre a post hsplit hder
  have hr' := holds_rules h hr
  refine hd p hargs body hr' values σ hσ hc pre a post hsplit fun c hc => ?_
  exact (holds_derivable hok h ((hok.rulesOk _ hr').2.2 c (by rw [hsplit]; exact List.mem_append_left _ hc)).1).1 (hder c hc)

/-- The calls of a query are below a level in what the modules hold. -/
theorem holds_below {mods : List (Module W)} {g : W → InfState} {w : W} {ar : String → Option Nat}
    {dbs : List (Dict (List (List Value)))} {rs : List HornRule} (hok : ProgramOk W ar dbs rs) (h : Holds mods g w ar dbs rs)
    {level : String → List Value → Nat} {q : Query} (hq : QueryOk ar q) {b : Binding} {n : Nat} (hb : CallsBelow (program dbs rs) level q b n) :
    CallsBelow (programOf mods g w) level q b n := by
  intro pre a post hsplit σ hσ hσb hder
  refine hb pre a post hsplit σ hσ hσb fun c hc => ?_
  exact (holds_derivable hok h (hq c (by rw [hsplit]; exact List.mem_append_left _ hc)).1).1 (hder c hc)

/-- Without recursion, calls go down. -/
theorem Descends.of_rank {dbs : List (Dict (List (List Value)))} {rs : List HornRule} {rank : String → Nat}
    (h : ∀ r ∈ rs, ∀ a ∈ r.body, rank a.1 < rank r.pred) : Descends (program dbs rs) rank :=
  ⟨fun p _ => rank p, fun p hargs body hr _ _ _ _ pre a post hsplit _ => h ⟨p, hargs, body⟩ hr a (by rw [hsplit]; simp), fun _ _ => Nat.le_refl _⟩

theorem core_none {ar : String → Option Nat} {dbs : List (Dict (List (List Value)))} {rs : List HornRule}
    (hok : ProgramOk W ar dbs rs) {p : String} {k : Nat} (hp : ar p = some k) (w : W) : (coreModule W).relations w p = none := by
  simp only [coreModule, Option.map_eq_none_iff]
  cases hc : (coreTable W).get p with
  | none => rfl
  | some f => rw [hok.notReserved.2.2 p f hc] at hp; simp at hp

/-- Tables only. -/
theorem holds_tables (w : W) (ar : String → Option Nat) {ms : List (Module W)} (dbs : List (Dict (List (List Value))))
    (hok : ProgramOk W ar dbs []) (hf : FactModules ar w ms dbs) : Holds (modelOf ms) (fun _ => InfState.init) w ar dbs [] := by
  have hsame : ∀ p k, ar p = some k → ∀ r, r ∈ findRelations (modelOf ms) w p ↔ r ∈ findRelations ms w p := by
    intro p k hp r
    rw [modelOf, findRelations_cons, core_none hok hp w]; simp
  refine ⟨fun p k hp r hr => ?_, fun p k hp db hdb rows hrows => ?_, by simp, by simp [InfState.init]⟩
  · exact .inl ((hf.mem hp).1 r ((hsame p k hp r).1 hr))
  · obtain ⟨r, hr, htl⟩ := (hf.mem hp).2 db hdb rows hrows
    exact ⟨r, (hsame p k hp r).2 hr, htl⟩

/-- Tables and an inference module into which rules have been inserted, in any order of the modules. -/
theorem holds_inference (l : Lens W InfState) (w : W) (ar : String → Option Nat) {ms ms' : List (Module W)}
    {dbs dbs' : List (Dict (List (List Value)))} (hf : FactModules ar w ms dbs) (hf' : FactModules ar w ms' dbs')
    (rs : List HornRule) (hok : ProgramOk W ar (dbs ++ dbs') rs)
    (hins : insertAll (rs.map HornRule.toRule) InfState.init = .ok (l.get w)) :
    Holds (modelOf (ms ++ inferenceModule l :: ms')) l.get w ar (dbs ++ dbs') rs := by
  have hex : ∀ p, (∃ r ∈ rs.map HornRule.toRule, r.pred = some p) ↔ ∃ r ∈ rs, r.pred = p := by
    intro p
    constructor
    · rintro ⟨r, hr, e⟩
      obtain ⟨r', hr', rfl⟩ := List.mem_map.1 hr
      exact ⟨r', hr', by simpa [toRule_pred] using e⟩
    · rintro ⟨r, hr, e⟩
      exact ⟨r.toRule, List.mem_map.2 ⟨r, hr, rfl⟩, by simp [toRule_pred, e]⟩
  have hmem : ∀ p k, ar p = some k → ∀ r, r ∈ findRelations (modelOf (ms ++ inferenceModule l :: ms')) w p ↔
      r ∈ findRelations ms w p ∨ ((∃ r ∈ rs, r.pred = p) ∧ r = ruleRelation l.get p) ∨ r ∈ findRelations ms' w p := by
    intro p k hp r
    rw [modelOf, findRelations_cons, core_none hok hp w, findRelations_append, findRelations_cons]
    have h2 : (inferenceModule l).relations w p = some r ↔ (∃ r ∈ rs, r.pred = p) ∧ r = ruleRelation l.get p := by
      simp only [inferenceModule]
      rw [(insertAll_rules hins p).2.2]
      by_cases h : ∃ r ∈ rs, r.pred = p
      · rw [if_pos ((hex p).2 h)]
        simp only [Option.map_some, Option.some.injEq, h, true_and, ruleRelation]
        exact eq_comm
      · rw [if_neg (fun hh => h ((hex p).1 hh))]
        have : p ≠ "learn_rule" := by
          rintro rfl; rw [hok.notReserved.2.1] at hp; simp at hp
        simp [InfState.init, Dict.get, h, this.symm]
    rw [h2]; simp
  refine ⟨?_, ?_, ?_, ?_⟩
  · intro p k hp r hr
    rcases (hmem p k hp r).1 hr with h | h | h
    · obtain ⟨db, hdb, x⟩ := (hf.mem hp).1 r h
      exact .inl ⟨db, List.mem_append_left _ hdb, x⟩
    · exact .inr h
    · obtain ⟨db, hdb, x⟩ := (hf'.mem hp).1 r h
      exact .inl ⟨db, List.mem_append_right _ hdb, x⟩
  · intro p k hp db hdb rows hrows
    rcases List.mem_append.1 hdb with hdb | hdb
    · obtain ⟨r, hr, htl⟩ := (hf.mem hp).2 db hdb rows hrows
      exact ⟨r, (hmem p k hp r).2 (.inl hr), htl⟩
    · obtain ⟨r, hr, htl⟩ := (hf'.mem hp).2 db hdb rows hrows
      exact ⟨r, (hmem p k hp r).2 (.inr (.inr hr)), htl⟩
  · intro p k hp he
    exact (hmem p k hp _).2 (.inr (.inl ⟨he, rfl⟩))
  · intro p
    obtain ⟨h1, h2, _⟩ := insertAll_rules hins p
    by_cases h : ∃ r ∈ rs, r.pred = p
    · rw [if_pos h]
      obtain ⟨x, hx⟩ := (Dict.has_iff _ _).1 (h2.2 (.inr ((hex p).2 h)))
      rw [hx] at h1 ⊢
      simp only [Option.getD_some, InfState.init, Dict.get_nil, Option.getD_none, List.nil_append] at h1
      rw [h1, List.filter_map]
      congr 2
      apply List.filter_congr
      intro r _
      simp [Function.comp, toRule_pred]
    · rw [if_neg h]
      have : (l.get w).rules.has p = false := by
        cases hh : (l.get w).rules.has p with
        | false => rfl
        | true =>
          rcases h2.1 hh with h3 | h3
          · simp [InfState.init, Dict.has] at h3
          · exact absurd ((hex p).1 h3) h
      exact (Dict.has_false_iff _ _).1 this

end Verif

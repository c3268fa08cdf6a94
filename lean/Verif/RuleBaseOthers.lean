import Verif.Props.Knowledge

/-!
# An inference module with other rules

The module holds the rules of a program, and other rules for predicates that do not belong to the program, like intents.
-/

namespace Verif

variable {W : Type}

/-- A model with tables and an inference module; only the predicates of the program are described. -/
structure HoldsFor (mods : List (Module W)) (g : W → InfState) (w : W) (ar : String → Option Nat)
    (dbs : List (Dict (List (List Value)))) (rs : List HornRule) : Prop where
  mem : ∀ p k, ar p = some k → ∀ r ∈ findRelations mods w p,
    (∃ db ∈ dbs, ∃ rows, db.get p = some rows ∧ TableLike r w rows) ∨ ((∃ r ∈ rs, r.pred = p) ∧ r = ruleRelation g p)
  tables : ∀ p k, ar p = some k → ∀ db ∈ dbs, ∀ rows, db.get p = some rows → ∃ r ∈ findRelations mods w p, TableLike r w rows
  heads : ∀ p k, ar p = some k → (∃ r ∈ rs, r.pred = p) → ruleRelation g p ∈ findRelations mods w p
  rules : ∀ p k, ar p = some k → (g w).rules.get p = if ∃ r ∈ rs, r.pred = p then
    some ((rs.filter (fun r => decide (r.pred = p))).map HornRule.toRule) else none
  noDisj : (g w).rules.get "$disjunction" = none

section
variable {mods : List (Module W)} {g : W → InfState} {w : W} {ar : String → Option Nat} {dbs : List (Dict (List (List Value)))} {rs : List HornRule}

theorem HoldsFor.wellFormed (hok : ProgramOk W ar dbs rs) (h : HoldsFor mods g w ar dbs rs) : WellFormed mods g w ar := by
  have hrow : ∀ p k, ar p = some k → ∀ r ∈ findRelations mods w p, ∀ rows, TableLike r w rows →
      ∃ db ∈ dbs, db.get p = some rows := by
    intro p k hp r hm rows htl
    rcases h.mem p k hp _ hm with ⟨db, hdb, rows', h1, h2⟩ | ⟨hr, h2⟩
    · rw [htl.unique h2]; exact ⟨db, hdb, h1⟩
    · subst h2; exact absurd htl (rule_not_tableLike h.noDisj)
  refine ⟨hok.notReserved.1, ?_, ?_, ?_, ?_, ?_⟩
  · intro p k hp
    rcases hok.defined p k hp with ⟨db, hdb, hh⟩ | hr
    · obtain ⟨rows, hrows⟩ := (Dict.has_iff _ _).1 hh
      obtain ⟨r, hr, _⟩ := h.tables p k hp db hdb rows hrows
      exact List.ne_nil_of_mem hr
    · exact List.ne_nil_of_mem (h.heads p k hp hr)
  · intro p k hp r hr
    rcases h.mem p k hp r hr with ⟨db, hdb, rows, _, e⟩ | ⟨_, e⟩
    · exact .inl ⟨rows, e⟩
    · exact .inr e
  · intro p k hp r hm rows htl
    obtain ⟨db, hdb, h1⟩ := hrow p k hp r hm rows htl
    exact hok.rowsOk p k hp db hdb rows h1
  · intro p k hp hm
    rcases h.mem p k hp _ hm with ⟨db, hdb, rows, h1, e⟩ | ⟨hr, _⟩
    · exact absurd e (rule_not_tableLike h.noDisj)
    · exact ⟨_, by rw [h.rules p k hp, if_pos hr]⟩
  · intro p k hp rl hrl r hr
    rw [h.rules p k hp] at hrl
    split at hrl
    · simp only [Option.some.injEq] at hrl
      subst hrl
      simp only [List.mem_map, List.mem_filter, decide_eq_true_eq] at hr
      obtain ⟨hr', ⟨hm, rfl⟩, rfl⟩ := hr
      have := hok.rulesOk hr' hm
      rw [hp] at this
      exact ⟨hr'.args, hr'.body, rfl, by simpa using this.1.symm, this.2⟩
    · simp at hrl

theorem HoldsFor.rule (h : HoldsFor mods g w ar dbs rs) {p : String} {k : Nat} (hp : ar p = some k) {hargs : List Value} {body : Query}
    (hr : (programOf mods g w).rules p hargs body) : (program dbs rs).rules p hargs body := by
  obtain ⟨_, rl, hrl, hm⟩ := hr
  rw [h.rules p k hp] at hrl
  split at hrl
  · simp only [Option.some.injEq] at hrl
    subst hrl
    simp only [List.mem_map, List.mem_filter, decide_eq_true_eq] at hm
    obtain ⟨r', ⟨hm, _⟩, e⟩ := hm
    have : r' = ⟨p, hargs, body⟩ := toRule_injective e
    show _ ∈ rs; rw [← this]; exact hm
  · simp at hrl

theorem HoldsFor.derivable (hok : ProgramOk W ar dbs rs) (h : HoldsFor mods g w ar dbs rs) {p : String} {k : Nat} (hp : ar p = some k) {row : List Value} :
    Derivable (programOf mods g w) p row ↔ Derivable (program dbs rs) p row := by
  constructor
  · intro hd
    induction hd generalizing k with
    | fact hf =>
      obtain ⟨r, hm, rows, htl, hrow⟩ := hf
      rcases h.mem _ k hp _ hm with ⟨db, hdb, rows', h1, h2⟩ | ⟨_, h2⟩
      · exact .fact ⟨db, hdb, rows', h1, htl.unique h2 ▸ hrow⟩
      · subst h2; exact absurd htl (rule_not_tableLike h.noDisj)
    | rule σ hr hσ _ ih =>
      have hr' := h.rule hp hr
      exact .rule σ hr' hσ fun a ha => ih a ha ((hok.rulesOk _ hr').2.2 a ha).1
  · intro hd
    induction hd generalizing k with
    | fact hf =>
      obtain ⟨db, hdb, rows, h1, hrow⟩ := hf
      obtain ⟨r, hr, htl⟩ := h.tables _ k hp db hdb rows h1
      exact .fact ⟨r, hr, rows, htl, hrow⟩
    | @rule p hargs body σ hr hσ _ ih =>
      have hex : ∃ r ∈ rs, r.pred = p := ⟨_, hr, rfl⟩
      refine .rule σ ⟨h.heads p k hp hex, _, by rw [h.rules p k hp, if_pos hex], ?_⟩ hσ
        (fun a ha => ih a ha ((hok.rulesOk _ hr).2.2 a ha).1)
      simp only [List.mem_map, List.mem_filter, decide_eq_true_eq]
      exact ⟨⟨p, hargs, body⟩, ⟨hr, rfl⟩, rfl⟩

end

/-- In a rule of the form of the rules of programs, the variables of the head occur in the body. -/
def Rule.HeadBound (r : Rule) : Prop :=
  ∀ p hargs body, r = { head := .str p :: hargs, body := toQuery body } → ∀ x, Value.var x ∈ hargs → x ∈ queryVars body

theorem holdsFor_inference (l : Lens W InfState) (w : W) (ar : String → Option Nat) {ms ms' : List (Module W)}
    {dbs dbs' : List (Dict (List (List Value)))} (hf : FactModules ar w ms dbs) (hf' : FactModules ar w ms' dbs')
    (extra : List Rule) (rs : List HornRule) (hok : ProgramOk W ar (dbs ++ dbs') rs)
    (hextra : ∀ e ∈ extra, e.pred ≠ some "$disjunction" ∧ ∀ p k, ar p = some k → e.pred ≠ some p)
    (hins : insertAll (extra ++ rs.map HornRule.toRule) InfState.init = .ok (l.get w)) :
    HoldsFor (modelOf (ms ++ inferenceModule l :: ms')) l.get w ar (dbs ++ dbs') rs := by
  have hex : ∀ p k, ar p = some k → ((∃ r ∈ extra ++ rs.map HornRule.toRule, r.pred = some p) ↔ ∃ r ∈ rs, r.pred = p) := by
    intro p k hp
    constructor
    · rintro ⟨r, hr, e⟩
      rcases List.mem_append.1 hr with hr | hr
      · exact absurd e ((hextra r hr).2 p k hp)
      · obtain ⟨r', hr', rfl⟩ := List.mem_map.1 hr
        exact ⟨r', hr', by simpa [toRule_pred] using e⟩
    · rintro ⟨r, hr, e⟩
      exact ⟨r.toRule, List.mem_append_right _ (List.mem_map.2 ⟨r, hr, rfl⟩), by simp [toRule_pred, e]⟩
  have hmem : ∀ p k, ar p = some k → ∀ r, r ∈ findRelations (modelOf (ms ++ inferenceModule l :: ms')) w p ↔
      r ∈ findRelations ms w p ∨ ((∃ r ∈ rs, r.pred = p) ∧ r = ruleRelation l.get p) ∨ r ∈ findRelations ms' w p := by
    intro p k hp r
    rw [modelOf, findRelations_cons, core_none hok hp w, findRelations_append, findRelations_cons]
    have h2 : (inferenceModule l).relations w p = some r ↔ (∃ r ∈ rs, r.pred = p) ∧ r = ruleRelation l.get p := by
      simp only [inferenceModule]
      rw [(insertAll_rules hins p).2.2]
      by_cases h : ∃ r ∈ rs, r.pred = p
      · rw [if_pos ((hex p k hp).2 h)]
        simp only [Option.map_some, Option.some.injEq, h, true_and, ruleRelation]
        exact eq_comm
      · rw [if_neg (fun hh => h ((hex p k hp).1 hh))]
        have : p ≠ "learn_rule" := by
          rintro rfl; rw [hok.notReserved.2.1] at hp; simp at hp
        simp [InfState.init, Dict.get, h, this.symm]
    rw [h2]; simp
  refine ⟨?_, ?_, ?_, ?_, ?_⟩
  · intro p k hp r hr
    rcases (hmem p k hp r).1 hr with h | h | h
    · obtain ⟨db, hdb, x⟩ := (hf.mem hp).1 r h
      exact .inl ⟨db, List.mem_append_left _ hdb, x⟩
    · exact .inr h
    · obtain ⟨db, hdb, x⟩ := (hf'.mem hp).1 r h
      exact .inl ⟨db, List.mem_append_right _ hdb, x⟩
  · intro p k hp db hdb rows hrows
    rcases List.mem_append.1 hdb with hdb | hdb
    · obtain ⟨r, hr, htl⟩ := (hf.mem hp).2 db hdb rows hrows
      exact ⟨r, (hmem p k hp r).2 (.inl hr), htl⟩
    · obtain ⟨r, hr, htl⟩ := (hf'.mem hp).2 db hdb rows hrows
      exact ⟨r, (hmem p k hp r).2 (.inr (.inr hr)), htl⟩
  · intro p k hp he
    exact (hmem p k hp _).2 (.inr (.inl ⟨he, rfl⟩))
  · intro p k hp
    obtain ⟨h1, h2, _⟩ := insertAll_rules hins p
    have hfil : extra.filter (fun r => decide (r.pred = some p)) = [] := by
      rw [List.filter_eq_nil_iff]
      intro e he
      simpa using (hextra e he).2 p k hp
    by_cases h : ∃ r ∈ rs, r.pred = p
    · rw [if_pos h]
      obtain ⟨x, hx⟩ := (Dict.has_iff _ _).1 (h2.2 (.inr ((hex p k hp).2 h)))
      rw [hx] at h1 ⊢
      simp only [Option.getD_some, InfState.init, Dict.get_nil, Option.getD_none, List.nil_append] at h1
      rw [h1, List.filter_append, hfil, List.nil_append, List.filter_map]
      congr 2
      apply List.filter_congr
      intro r _
      simp [Function.comp, toRule_pred]
    · rw [if_neg h]
      have : (l.get w).rules.has p = false := by
        cases hh : (l.get w).rules.has p with
        | false => rfl
        | true =>
          rcases h2.1 hh with h3 | h3
          · simp [InfState.init, Dict.has] at h3
          · exact absurd ((hex p k hp).1 h3) h
      exact (Dict.has_false_iff _ _).1 this
  · obtain ⟨_, h2, _⟩ := insertAll_rules hins "$disjunction"
    have : (l.get w).rules.has "$disjunction" = false := by
      cases hh : (l.get w).rules.has "$disjunction" with
      | false => rfl
      | true =>
        rcases h2.1 hh with h3 | ⟨r, hr, h3⟩
        · simp [InfState.init, Dict.has] at h3
        · rcases List.mem_append.1 hr with hr | hr
          · exact absurd h3 (hextra r hr).1
          · obtain ⟨r', hr', rfl⟩ := List.mem_map.1 hr
            have e : r'.pred = "$disjunction" := by simpa [toRule_pred] using h3
            have := (hok.rulesOk r' hr').1
            rw [e, hok.notReserved.1] at this
            simp at this
    exact (Dict.has_false_iff _ _).1 this

/-- Other rules in the inference module do not matter: a query over the predicates of the program has exactly the answers of the program. -/
theorem solve_exact_others (l : Lens W InfState) (w : W) (ar : String → Option Nat) {ms ms' : List (Module W)}
    {dbs dbs' : List (Dict (List (List Value)))} (hf : FactModules ar w ms dbs) (hf' : FactModules ar w ms' dbs')
    (extra : List Rule) (rs : List HornRule) (hok : ProgramOk W ar (dbs ++ dbs') rs)
    (hextra : ∀ e ∈ extra, e.pred ≠ some "$disjunction" ∧ ∀ p k, ar p = some k → e.pred ≠ some p)
    (hbound : ∀ e ∈ extra, e.HeadBound)
    (hins : insertAll (extra ++ rs.map HornRule.toRule) InfState.init = .ok (l.get w))
    {q : Query} (hq : QueryOk ar q) {b : Binding} (hb : PlainB b) (n : Nat) :
    (solverAt (modelOf (ms ++ inferenceModule l :: ms')) n).solve (toQuery q) b w = .oof ∨
    ∃ bs, (solverAt (modelOf (ms ++ inferenceModule l :: ms')) n).solve (toQuery q) b w = .ok w (.rows bs) ∧
      SoundB (program (dbs ++ dbs') rs) q b bs ∧ NoDup bs ∧ (HeadsBound rs → CompleteB (program (dbs ++ dbs') rs) q b bs) := by
  have hh := holdsFor_inference l w ar hf hf' extra rs hok hextra hins
  rcases solve_good (hh.wellFormed hok) n hq hb with h1 | ⟨bs, h1, h2, h3, h4⟩
  · exact .inl h1
  · refine .inr ⟨bs, h1, ?_, h3, ?_⟩
    · intro b' hb'
      obtain ⟨a1, a2, a3, a4⟩ := h2 b' hb'
      exact ⟨a1, a2, a3, fun σ hσ a ha => (hh.derivable hok (hq a ha).1).1 (a4 σ hσ a ha)⟩
    · intro hrr σ hσp hσ hd
      refine h4 ?_ σ hσp hσ (fun a ha => (hh.derivable hok (hq a ha).1).2 (hd a ha))
      rintro p hargs body ⟨_, rl, hrl, hm⟩ x hx
      have hrules := (insertAll_rules hins p).1
      rw [hrl] at hrules
      simp only [Option.getD_some, InfState.init, Dict.get_nil, Option.getD_none, List.nil_append] at hrules
      rw [hrules] at hm
      rcases List.mem_append.1 (List.mem_filter.1 hm).1 with hm | hm
      · exact hbound _ hm p hargs body rfl x hx
      · obtain ⟨r', hr', e⟩ := List.mem_map.1 hm
        have : r' = ⟨p, hargs, body⟩ := toRule_injective e
        exact hrr _ hr' x (by rw [this]; exact hx) |> fun h => by rw [this] at h; exact h

end Verif

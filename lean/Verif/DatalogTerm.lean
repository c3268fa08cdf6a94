import Verif.DatalogMain

/-!
# Termination for programs without recursion: lemmas
-/

namespace Verif

variable {W : Type}

theorem queryRelations_fin {api : SolverApi W} {mult : Bool} {args : List Value} {b : Binding} {db : List Value}
    {w : W} {rels : List (Relation W)}
    (h : ∀ r ∈ rels, ∃ rows,
      r.query db { predicate := r.predicate, columns := r.columns, arguments := args, binding := b, solver := api } w
        = .ok w (.rows rows)) (acc : List (List Value)) :
    queryRelations api mult args b db rels acc w ≠ .oof := by
  induction rels generalizing acc with
  | nil => simp [queryRelations]
  | cons r rels ih =>
    simp only [queryRelations]
    obtain ⟨rows, h1⟩ := h r (by simp)
    rw [M.bind_ok h1]
    exact ih (fun r hr => h r (List.mem_cons_of_mem _ hr)) _

theorem resultsOf_fin (b : Binding) (args : List Value) (q : QOut) (w : W) : resultsOf b args q w ≠ .oof := by
  unfold resultsOf
  split
  · simp
  · simp
  · split
    · simp
    · cases h : createResults b args (_ :: _) <;> simp [Except.map, M.lift, M.pure, M.throw]

theorem solveRule_fin {rule : Rule} {args : List Value} {solver : SolverApi W} {b : Binding} {w : W}
    (h : ∀ rb, emptyBody rule.body = false → bindHead b rule.head.tail args (b.without rule.variables) = some rb →
      solver.solve rule.body rb w ≠ .oof) :
    solveRule rule args solver b w ≠ .oof := by
  unfold solveRule
  cases hbh : bindHead b rule.head.tail args (b.without rule.variables) with
  | none => simp
  | some rb =>
    dsimp only
    rw [ite_bind, M.bind_run]
    have h1 : (if emptyBody rule.body = true then (pure (.rows [rb]) : M W SolOut) else solver.solve rule.body rb) w ≠ .oof := by
      split
      · simp
      · rename_i he; exact h rb (by simpa using he) hbh
    cases hr : (if emptyBody rule.body = true then (pure (.rows [rb]) : M W SolOut) else solver.solve rule.body rb) w with
    | oof => exact absurd hr h1
    | err => simp
    | ok w' o =>
      dsimp only
      match o with
      | .rows bs => simp [ruleRows]
      | .iter s n => cases h : textRows rule.head.tail args (resultItems s n) <;> simp [ruleRows, h, M.lift, M.bind_run, M.pure, M.throw]

theorem solveRules_fin {args : List Value} {solver : SolverApi W} {b : Binding} {w : W} {rs : List Rule}
    (h : ∀ r ∈ rs, solveRule r args solver b w ≠ .oof)
    (h2 : ∀ r ∈ rs, ∀ w' rows, solveRule r args solver b w = .ok w' rows → w' = w) (acc : List (List Value)) :
    solveRules args solver b rs acc w ≠ .oof := by
  induction rs generalizing acc with
  | nil => simp [solveRules]
  | cons r rs ih =>
    simp only [solveRules]
    rw [M.bind_run]
    cases hr : solveRule r args solver b w with
    | oof => exact absurd hr (h r (by simp))
    | err => simp
    | ok w' rows =>
      dsimp only
      rw [h2 r (by simp) w' rows hr]
      exact ih (fun r hr => h r (List.mem_cons_of_mem _ hr)) (fun r hr => h2 r (List.mem_cons_of_mem _ hr)) _

theorem collect_fin {f : Binding → M W SolOut} {w : W} {bs : List Binding}
    (h : ∀ b ∈ bs, ∃ rs, f b w = .ok w (.rows rs)) (acc : List Binding) : collect f bs acc w ≠ .oof := by
  induction bs generalizing acc with
  | nil => simp [collect]
  | cons b bs ih =>
    simp only [collect]
    obtain ⟨rs, h1⟩ := h b (by simp)
    rw [M.bind_ok h1]
    exact ih (fun b hb => h b (List.mem_cons_of_mem _ hb)) _

section
variable {mods : List (Module W)} {l : W → InfState} {w : W} {ar : String → Option Nat}

/-- Each body atom of a rule has a lower rank than the head. -/
def Ranked (P : Program) (rank : String → Nat) : Prop :=
  ∀ p hargs body, P.rules p hargs body → ∀ a ∈ body, rank a.1 < rank p

theorem Good.ok_of_ne {P : Program} {q : Query} {b : Binding} {r : Res W SolOut} (h : Good P q b w r) (hne : r ≠ .oof) :
    ∃ bs, r = .ok w (.rows bs) ∧ SoundB P q b bs ∧ NoDup bs ∧ (RangeRestricted P → CompleteB P q b bs) :=
  h.resolve_left hne

theorem solveSingle_fin (hwf : WellFormed mods l w ar) {rank : String → Nat}
    (hrank : Ranked (programOf mods l w) rank) {n : Nat} {api : SolverApi W}
    (hapi : ∀ q b, QueryOk ar q → PlainB b → Good (programOf mods l w) q b w (api.solve (toQuery q) b w))
    (hfin : ∀ q b, q ≠ [] → QueryOk ar q → PlainB b → (∀ a ∈ q, rank a.1 < n) → api.solve (toQuery q) b w ≠ .oof)
    {p : String} {args : List Value} (hp : ar p = some args.length) (hargs : ArgsOk args) (hpr : rank p < n + 1)
    {b : Binding} (hb : PlainB b) : solveSingle api mods (toAtom (p, args)) b w ≠ .oof := by
  have hnd : p ≠ "$disjunction" := by
    rintro rfl; rw [hwf.noDisj] at hp; simp at hp
  simp only [toAtom, solveSingle_tuple, solveSingle.go, hnd, if_false, findRelationValues]
  rw [M.bind_run, M.bind_run]
  simp only [M.gets_run]
  have hdef := hwf.defined p _ hp
  have hrel : ∀ r ∈ findRelations mods w p, ∃ rows,
      r.query (dbValues args b) { predicate := r.predicate, columns := r.columns, arguments := args, binding := b, solver := api } w
        = .ok w (.rows rows) := by
    intro r hr
    rcases hwf.kinds p _ hp r hr with ⟨rows, htl⟩ | rfl
    · exact ⟨_, htl _ _⟩
    · obtain ⟨rs, hrs⟩ := hwf.rulesSome p _ hp hr
      have hrules : ∀ r ∈ rs, ∃ hargs body, r = { head := .str p :: hargs, body := toQuery body } ∧
          hargs.length = args.length ∧ ArgsOk hargs ∧ (programOf mods l w).rules p hargs body ∧ QueryOk ar body := by
        intro r hr2
        obtain ⟨hargs'', body'', e, h1, h2, h3⟩ := hwf.rulesOk p _ hp rs hrs r hr2
        exact ⟨hargs'', body'', e, h1, h2, ⟨hr, rs, hrs, e ▸ hr2⟩, h3⟩
      have hgood := solveRules_good (w := w) (P := programOf mods l w) (p := p) (args := args) (b := b) (solver := api)
        (rs := rs) (by
          intro r hr2
          obtain ⟨hargs'', body'', e, h1, h2, h3, h4⟩ := hrules r hr2
          exact ⟨hargs'', body'', e, h1, h2, h3, fun b hb => hapi body'' b h4 hb⟩) hb hargs [] (by simp)
      have hne : solveRules args api b rs [] w ≠ .oof := by
        refine solveRules_fin ?_ ?_ []
        · intro r hr2
          obtain ⟨hargs'', body'', rfl, h1, h2, h3, h4⟩ := hrules r hr2
          refine solveRule_fin ?_
          intro rb hne hrb
          dsimp only at hrb hne ⊢
          have hwb : PlainB (b.without (Rule.variables { head := .str p :: hargs'', body := toQuery body'' })) := by
            intro x v hx
            rw [Dict.get_without] at hx
            split at hx
            · simp at hx
            · exact hb x v hx
          have hrb' := (bindHead_sound hb hargs hwb hrb).2.1
          by_cases hbody : body'' = []
          · subst hbody
            simp [toQuery, emptyBody] at hne
          · exact hfin body'' rb hbody h4 hrb' (fun a ha => by have := hrank p hargs'' body'' h3 a ha; omega)
        · intro r hr2 w' rows hok
          obtain ⟨hargs'', body'', rfl, h1, h2, h3, h4⟩ := hrules r hr2
          rcases solveRule_good h3 (fun b hb => hapi body'' b h4 hb) hb hargs h2 h1 with h | ⟨rows', h, _⟩
          · rw [hok] at h; simp at h
          · rw [hok] at h; simp only [Res.ok.injEq] at h; exact h.1
      rcases hgood with h | ⟨rows, h, _⟩
      · exact absurd h hne
      · refine ⟨rows, ?_⟩
        simp only [ruleRelation, handleRule]
        rw [M.bind_run]
        simp only [M.gets_run, hrs]
        rw [M.bind_run, h]
        rfl
  generalize findRelations mods w p = rels at hdef hrel
  cases rels with
  | nil => simp at hdef
  | cons r0 rs0 =>
    dsimp only
    cases hqr : queryRelations api (decide (0 < rs0.length)) args b (dbValues args b) (r0 :: rs0) [] w with
    | oof => exact absurd hqr (queryRelations_fin hrel [])
    | err => simp
    | ok w' o => exact resultsOf_fin _ _ _ _

theorem solveAtoms_fin (hwf : WellFormed mods l w ar) {rank : String → Nat}
    (hrank : Ranked (programOf mods l w) rank) {n : Nat} {api : SolverApi W}
    (hapi : ∀ q b, QueryOk ar q → PlainB b → Good (programOf mods l w) q b w (api.solve (toQuery q) b w))
    (hfin : ∀ q b, q ≠ [] → QueryOk ar q → PlainB b → (∀ a ∈ q, rank a.1 < n) → api.solve (toQuery q) b w ≠ .oof)
    {q : Query} (hq : QueryOk ar q) (hqr : ∀ a ∈ q, rank a.1 < n + 1) {b : Binding} (hb : PlainB b) :
    solveAtoms api mods (q.map toAtom) b w ≠ .oof := by
  induction q generalizing b with
  | nil => simp [solveAtoms]
  | cons a q ih =>
    obtain ⟨p, args⟩ := a
    have h0 := solveSingle_fin hwf hrank hapi hfin (hq (p, args) (by simp)).1 (hq (p, args) (by simp)).2
      (hqr (p, args) (by simp)) hb
    have h1 := solveSingle_good hwf hapi (hq (p, args) (by simp)).1 (hq (p, args) (by simp)).2 hb
    cases q with
    | nil => exact h0
    | cons a2 rest =>
      have hq' : QueryOk ar (a2 :: rest) := fun a ha => hq a (List.mem_cons_of_mem _ ha)
      simp only [List.map_cons, solveAtoms]
      rw [M.bind_run]
      obtain ⟨bs, h1, hs1, _, hc1⟩ := h1.ok_of_ne h0
      rw [h1]
      dsimp only
      refine collect_fin ?_ []
      intro b' hb'
      have h2 := ih hq' (fun a ha => hqr a (List.mem_cons_of_mem _ ha)) (hs1 b' hb').1
      obtain ⟨rs, h3, _⟩ := (solveAtoms_good hwf hapi hq' (hs1 b' hb').1).ok_of_ne h2
      exact ⟨rs, h3⟩

theorem solve_fin (hwf : WellFormed mods l w ar) {rank : String → Nat}
    (hrank : Ranked (programOf mods l w) rank) (n : Nat)
    {q : Query} (hq : QueryOk ar q) (hqr : ∀ a ∈ q, rank a.1 < n + 1) {b : Binding} (hb : PlainB b) :
    (solverAt mods (n + 1)).solve (toQuery q) b w ≠ .oof := by
  induction n generalizing q b with
  | zero =>
    refine solveAtoms_fin hwf hrank (fun q b hq hb => solve_good hwf 0 hq hb) ?_ hq hqr hb
    intro q b hne _ _ hr
    obtain ⟨a, ha⟩ := List.exists_mem_of_ne_nil q hne
    exact absurd (hr a ha) (by omega)
  | succ n ih =>
    exact solveAtoms_fin hwf hrank (fun q b hq hb => solve_good hwf (n + 1) hq hb)
      (fun q b _ hq hb hr => ih hq hr hb) hq hqr hb

end

end Verif

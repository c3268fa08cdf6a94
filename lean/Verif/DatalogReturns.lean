import Verif.DatalogEndless
import Verif.Mono

/-!
# A query returns exactly if there is no endless chain of calls: lemmas
-/

namespace Verif

variable {W : Type}

/-- The second call makes the first one: some rule matches it, and an atom of the body is, after the atoms before it have an answer, called with these
values (specification). A call is a predicate with values, `none` where no value is known. -/
def NextCall (P : Program) (c' c : String × List Value) : Prop :=
  ∃ hargs body, P.rules c.1 hargs body ∧ ∃ σ : Assignment, (∀ x, Plain (σ x)) ∧ CallsHead σ hargs c.2 ∧
    ∃ pre a post, body = pre ++ a :: post ∧ (∀ d ∈ pre, Derivable P d.1 (d.2.map (inst σ))) ∧
      c' = (a.1, callValues σ (fun x => KnownIn hargs c.2 x ∨ x ∈ queryVars pre) a.2)

/-- The query makes the call: an atom of it is, after the atoms before it have an answer, called with these values (specification). -/
def QueryCall (P : Program) (q : Query) (b : Binding) (c : String × List Value) : Prop :=
  ∃ σ : Assignment, (∀ x, Plain (σ x)) ∧ Agrees σ b ∧ ∃ pre a post, q = pre ++ a :: post ∧ (∀ d ∈ pre, Derivable P d.1 (d.2.map (inst σ))) ∧
    c = (a.1, callValues σ (fun x => b.has x = true ∨ x ∈ queryVars pre) a.2)

/-- There is an endless chain of calls that begins with a call of the query (specification). -/
def EndlessCalls (P : Program) (q : Query) (b : Binding) : Prop :=
  ∃ chain : Nat → String × List Value, QueryCall P q b (chain 0) ∧ ∀ i, NextCall P (chain (i + 1)) (chain i)

theorem acc_of_no_chain {α : Type} {r : α → α → Prop} {x : α} (h : ¬ ∃ f : Nat → α, f 0 = x ∧ ∀ i, r (f (i + 1)) (f i)) : Acc r x := by
  refine Classical.byContradiction fun hx => h ?_
  have hstep : ∀ y : {y // ¬ Acc r y}, ∃ z : {z // ¬ Acc r z}, r z.1 y.1 := by
    intro y
    refine Classical.byContradiction fun hn => y.2 ⟨_, fun z hz => Classical.byContradiction fun hz' => hn ⟨⟨z, hz'⟩, hz⟩⟩
  let f : Nat → {y // ¬ Acc r y} := fun n => Nat.rec ⟨x, hx⟩ (fun _ y => Classical.choose (hstep y)) n
  exact ⟨fun n => (f n).1, rfl, fun i => Classical.choose_spec (hstep (f i))⟩

section
variable {mods : List (Module W)} {l : W → InfState} {w : W} {ar : String → Option Nat}

/-- More depth does not change the outcome: one atom. -/
theorem solveSingle_le (hwf : WellFormed mods l w ar) {api api' : SolverApi W}
    (hapi : ∀ q b, QueryOk ar q → PlainB b → Good (programOf mods l w) q b w (api.solve (toQuery q) b w))
    (hle : ∀ q b, QueryOk ar q → PlainB b → Res.Le (api.solve (toQuery q) b w) (api'.solve (toQuery q) b w))
    {p : String} {args : List Value} (hp : ar p = some args.length) (hargs : ArgsOk args)
    {b : Binding} (hb : PlainB b) : Res.Le (solveSingle api mods (toAtom (p, args)) b w) (solveSingle api' mods (toAtom (p, args)) b w) := by
  have hnd : p ≠ "$disjunction" := by
    rintro rfl; rw [hwf.noDisj] at hp; simp at hp
  simp only [toAtom, solveSingle_tuple, solveSingle.go, hnd, if_false, findRelationValues]
  rw [M.bind_run, M.bind_run, M.bind_run, M.bind_run]
  simp only [M.gets_run]
  have hdef := hwf.defined p _ hp
  have hrel : ∀ r ∈ findRelations mods w p,
      r.query (dbValues args b) { predicate := r.predicate, columns := r.columns, arguments := args, binding := b, solver := api } w = .oof ∨
      ∃ rows, r.query (dbValues args b) { predicate := r.predicate, columns := r.columns, arguments := args, binding := b, solver := api } w
          = .ok w (.rows rows) ∧
        r.query (dbValues args b) { predicate := r.predicate, columns := r.columns, arguments := args, binding := b, solver := api' } w
          = .ok w (.rows rows) := by
    intro r hr
    rcases hwf.kinds p _ hp r hr with ⟨rows, htl⟩ | rfl
    · exact .inr ⟨_, htl _ _, htl _ _⟩
    · obtain ⟨rs, hrs⟩ := hwf.rulesSome p _ hp hr
      have hone : ∀ r ∈ rs, solveRule r args api b w = .oof ∨
          ∃ rows, solveRule r args api b w = .ok w rows ∧ solveRule r args api' b w = .ok w rows := by
        intro r hr2
        obtain ⟨hargs'', body'', rfl, h1, h2, h3⟩ := hwf.rulesOk p _ hp rs hrs r hr2
        rcases solveRule_good (P := programOf mods l w) ⟨hr, rs, hrs, hr2⟩ (fun b hb => hapi body'' b h3 hb) hb hargs h2 h1 with h | ⟨rows, h, _⟩
        · exact .inl h
        · refine .inr ⟨rows, h, ?_⟩
          unfold solveRule at h ⊢
          simp only [List.tail_cons] at h ⊢
          generalize Rule.variables { head := .str p :: hargs'', body := toQuery body'' } = vs at h ⊢
          have hwb : PlainB (b.without vs) := by
            intro x v hx
            rw [Dict.get_without] at hx
            split at hx
            · simp at hx
            · exact hb x v hx
          cases hrb : bindHead b hargs'' args (b.without vs) with
          | none => rw [hrb] at h; exact h
          | some rb =>
            rw [hrb] at h
            obtain ⟨_, hrb', _⟩ := bindHead_sound hb hargs hwb hrb
            dsimp only at h ⊢
            split at h
            · rename_i he
              rw [if_pos he]; exact h
            · rename_i he
              rw [if_neg he]
              rw [M.bind_run] at h ⊢
              rcases hle body'' rb h3 hrb' with e | e
              · rw [e] at h; cases h
              · rw [← e]; exact h
      have hrules : ∀ (rs : List Rule), (∀ r ∈ rs, solveRule r args api b w = .oof ∨
          ∃ rows, solveRule r args api b w = .ok w rows ∧ solveRule r args api' b w = .ok w rows) → ∀ acc,
          solveRules args api b rs acc w = .oof ∨
          ∃ rows, solveRules args api b rs acc w = .ok w rows ∧ solveRules args api' b rs acc w = .ok w rows := by
        intro rs
        induction rs with
        | nil => intro _ acc; exact .inr ⟨acc, rfl, rfl⟩
        | cons r rs ih =>
          intro h acc
          simp only [solveRules]
          rcases h r (by simp) with h1 | ⟨rows, h1, h2⟩
          · left; rw [M.bind_run, h1]
          · rw [M.bind_ok h1, M.bind_ok h2]
            exact ih (fun r hr => h r (List.mem_cons_of_mem _ hr)) _
      simp only [ruleRelation, handleRule]
      rw [M.bind_run, M.bind_run]
      simp only [M.gets_run, hrs]
      rw [M.bind_run, M.bind_run]
      rcases hrules rs hone [] with h | ⟨rows, h, h'⟩
      · left; rw [h]
      · right; exact ⟨rows, by rw [h]; rfl, by rw [h']; rfl⟩
  have hall : ∀ (mult : Bool) (rels : List (Relation W)), (∀ r ∈ rels,
      r.query (dbValues args b) { predicate := r.predicate, columns := r.columns, arguments := args, binding := b, solver := api } w = .oof ∨
      ∃ rows, r.query (dbValues args b) { predicate := r.predicate, columns := r.columns, arguments := args, binding := b, solver := api } w
          = .ok w (.rows rows) ∧
        r.query (dbValues args b) { predicate := r.predicate, columns := r.columns, arguments := args, binding := b, solver := api' } w
          = .ok w (.rows rows)) → ∀ acc, Res.Le (queryRelations api mult args b (dbValues args b) rels acc w)
            (queryRelations api' mult args b (dbValues args b) rels acc w) := by
    intro mult rels
    induction rels with
    | nil => intro _ acc; exact .inr rfl
    | cons r rels ih =>
      intro h acc
      simp only [queryRelations]
      rcases h r (by simp) with h1 | ⟨rows, h1, h2⟩
      · left; rw [M.bind_run, h1]
      · rw [M.bind_ok h1, M.bind_ok h2]
        exact ih (fun r hr => h r (List.mem_cons_of_mem _ hr)) _
  generalize findRelations mods w p = rels at hdef hrel
  cases rels with
  | nil => simp at hdef
  | cons r0 rs0 =>
    dsimp only
    rcases hall (decide (0 < rs0.length)) (r0 :: rs0) hrel [] with h | h
    · left; rw [h]
    · right; rw [h]

/-- More depth does not change the outcome: a list of atoms. -/
theorem solveAtoms_le (hwf : WellFormed mods l w ar) {api api' : SolverApi W}
    (hapi : ∀ q b, QueryOk ar q → PlainB b → Good (programOf mods l w) q b w (api.solve (toQuery q) b w))
    (hle : ∀ q b, QueryOk ar q → PlainB b → Res.Le (api.solve (toQuery q) b w) (api'.solve (toQuery q) b w))
    {q : Query} (hq : QueryOk ar q) {b : Binding} (hb : PlainB b) :
    Res.Le (solveAtoms api mods (q.map toAtom) b w) (solveAtoms api' mods (q.map toAtom) b w) := by
  induction q generalizing b with
  | nil => exact .inr rfl
  | cons a q ih =>
    have h0 := solveSingle_le hwf hapi hle (hq a (by simp)).1 (hq a (by simp)).2 hb
    cases q with
    | nil => exact h0
    | cons a2 rest =>
      have hq' : QueryOk ar (a2 :: rest) := fun a ha => hq a (List.mem_cons_of_mem _ ha)
      simp only [List.map_cons, solveAtoms]
      rw [M.bind_run, M.bind_run]
      rcases solveSingle_good hwf hapi (hq a (by simp)).1 (hq a (by simp)).2 hb with h1 | ⟨bs, h1, hs1, _⟩
      · left; rw [h1]
      · rcases h0 with h0 | h0
        · rw [h0] at h1; cases h1
        · rw [← h0, h1]
          dsimp only
          have hcol : ∀ bs : List Binding, (∀ b' ∈ bs, PlainB b') → ∀ acc,
              Res.Le (collect (solveAtoms api mods (toAtom a2 :: rest.map toAtom)) bs acc w)
                (collect (solveAtoms api' mods (toAtom a2 :: rest.map toAtom)) bs acc w) := by
            intro bs
            induction bs with
            | nil => intro _ acc; exact .inr rfl
            | cons b' bs ih2 =>
              intro hbs acc
              simp only [collect]
              rw [M.bind_run, M.bind_run]
              rcases solveAtoms_good hwf hapi hq' (hbs b' (by simp)) with h | ⟨rows, h, _⟩
              · left
                have h' : solveAtoms api mods (toAtom a2 :: rest.map toAtom) b' w = .oof := h
                rw [h']
              · have h' : solveAtoms api mods (toAtom a2 :: rest.map toAtom) b' w = .ok w (.rows rows) := h
                rcases ih hq' (hbs b' (by simp)) with h2 | h2
                · rw [h2] at h; cases h
                · have h2' : solveAtoms api mods (toAtom a2 :: rest.map toAtom) b' w = solveAtoms api' mods (toAtom a2 :: rest.map toAtom) b' w := h2
                  rw [← h2', h']
                  exact ih2 (fun b'' hb'' => hbs b'' (List.mem_cons_of_mem _ hb'')) _
          exact hcol bs (fun b' hb' => (hs1 b' hb').1) []

theorem solve_le (hwf : WellFormed mods l w ar) {n m : Nat} (hnm : n ≤ m) {q : Query} (hq : QueryOk ar q) {b : Binding} (hb : PlainB b) :
    Res.Le ((solverAt mods n).solve (toQuery q) b w) ((solverAt mods m).solve (toQuery q) b w) := by
  have hstep : ∀ n q b, QueryOk ar q → PlainB b → Res.Le ((solverAt mods n).solve (toQuery q) b w) ((solverAt mods (n + 1)).solve (toQuery q) b w) := by
    intro n
    induction n with
    | zero => intro q b _ _; exact .inl rfl
    | succ n ih => intro q b hq hb; exact solveAtoms_le hwf (fun q b hq hb => solve_good hwf n hq hb) ih hq hb
  induction hnm with
  | refl => exact .inr rfl
  | step _ ih =>
    rcases ih with e | e
    · exact .inl e
    · rw [e]; exact hstep _ q b hq hb

/-- Each of these returns from some depth on: so do all of them. -/
theorem common_depth {α : Type} {p : α → Nat → Prop} (hp : ∀ a n m, n ≤ m → p a n → p a m) {xs : List α} (h : ∀ a ∈ xs, ∃ n, p a n) : ∃ n, ∀ a ∈ xs, p a n := by
  induction xs with
  | nil => exact ⟨0, by simp⟩
  | cons x xs ih =>
    obtain ⟨n, hn⟩ := h x (by simp)
    obtain ⟨m, hm⟩ := ih fun a ha => h a (List.mem_cons_of_mem _ ha)
    refine ⟨n + m, fun a ha => ?_⟩
    rcases List.mem_cons.1 ha with rfl | ha
    · exact hp _ _ _ (by omega) hn
    · exact hp _ _ _ (by omega) (hm a ha)

theorem solveSingle_depth (hwf : WellFormed mods l w ar) {n m : Nat} (hnm : n ≤ m) {p : String} {args : List Value} (hp : ar p = some args.length)
    (hargs : ArgsOk args) {b : Binding} (hb : PlainB b) :
    Res.Le (solveSingle (solverAt mods n) mods (toAtom (p, args)) b w) (solveSingle (solverAt mods m) mods (toAtom (p, args)) b w) :=
  solveSingle_le hwf (fun q b hq hb => solve_good hwf n hq hb) (fun q b hq hb => solve_le hwf hnm hq hb) hp hargs hb

theorem solveAtoms_depth (hwf : WellFormed mods l w ar) {n m : Nat} (hnm : n ≤ m) {q : Query} (hq : QueryOk ar q) {b : Binding} (hb : PlainB b) :
    Res.Le (solveAtoms (solverAt mods n) mods (q.map toAtom) b w) (solveAtoms (solverAt mods m) mods (q.map toAtom) b w) :=
  solveAtoms_le hwf (fun q b hq hb => solve_good hwf n hq hb) (fun q b hq hb => solve_le hwf hnm hq hb) hq hb

theorem Res.Le.ne {α : Type} {r r' : Res W α} (h : Res.Le r r') (hr : r ≠ .oof) : r' ≠ .oof := by
  rcases h with e | e
  · exact absurd e hr
  · rwa [← e]

theorem QueryCall.tail {P : Program} {a : String × List Value} {q : Query} {b : Binding} {bs : List Binding} (hs : SoundB P [a] b bs) {b' : Binding}
    (hb' : b' ∈ bs) {c : String × List Value} (h : QueryCall P q b' c) : QueryCall P (a :: q) b c := by
  obtain ⟨σ, hσp, hσ, pre, d, post, hsplit, hder, e⟩ := h
  obtain ⟨_, h2, h3, h4⟩ := hs b' hb'
  refine ⟨σ, hσp, fun x v hx => hσ x v (h2 x v hx), a :: pre, d, post, by rw [hsplit]; rfl, ?_, ?_⟩
  · intro c' hc'
    rcases List.mem_cons.1 hc' with rfl | hc'
    · exact h4 σ hσ _ (by simp)
    · exact hder c' hc'
  · rw [e, callValues_congr]
    intro x _
    rw [h3]
    simp only [queryVars, List.flatMap_cons, List.flatMap_nil, List.append_nil, List.mem_append, or_assoc]

theorem QueryCall.first {P : Program} {p : String} {args : List Value} {q : Query} {b : Binding} (hb : PlainB b) :
    QueryCall P ((p, args) :: q) b (p, dbValues args b) := by
  obtain ⟨σ, h1, h2⟩ := plain_assignment hb
  refine ⟨σ, h1, h2, [], (p, args), q, rfl, by simp, ?_⟩
  rw [← callValues_db h2 args]
  simp [queryVars]

/-- If each call that a list of atoms makes returns, the list does. -/
theorem solveAtoms_returns (hwf : WellFormed mods l w ar) {q : Query} (hq : QueryOk ar q) {b : Binding} (hb : PlainB b)
    (hcalls : ∀ c, QueryCall (programOf mods l w) q b c → ∀ args b, ar c.1 = some args.length → ArgsOk args → PlainB b → dbValues args b = c.2 →
      ∃ n, solveSingle (solverAt mods n) mods (toAtom (c.1, args)) b w ≠ .oof) :
    ∃ n, solveAtoms (solverAt mods n) mods (q.map toAtom) b w ≠ .oof := by
  induction q generalizing b with
  | nil => exact ⟨0, by simp [solveAtoms]⟩
  | cons a q ih =>
    obtain ⟨p, args⟩ := a
    obtain ⟨n, h0⟩ := hcalls _ (QueryCall.first hb) args b (hq (p, args) (by simp)).1 (hq (p, args) (by simp)).2 hb rfl
    dsimp only at h0
    cases q with
    | nil => exact ⟨n, h0⟩
    | cons a2 rest =>
      have hq' : QueryOk ar (a2 :: rest) := fun a ha => hq a (List.mem_cons_of_mem _ ha)
      obtain ⟨bs, h1, hs1, _⟩ := (solveSingle_good hwf (fun q b hq hb => solve_good hwf n hq hb) (hq (p, args) (by simp)).1 (hq (p, args) (by simp)).2 hb).ok_of_ne h0
      obtain ⟨m, hm⟩ := common_depth (p := fun b' m => PlainB b' → solveAtoms (solverAt mods m) mods ((a2 :: rest).map toAtom) b' w ≠ .oof)
        (fun b' n m hnm h hb' => (solveAtoms_depth hwf hnm hq' hb').ne (h hb')) (xs := bs)
        (fun b' hb' => by
          obtain ⟨m, hm⟩ := ih hq' (hs1 b' hb').1 (fun c hc => hcalls c (hc.tail hs1 hb'))
          exact ⟨m, fun _ => hm⟩)
      refine ⟨n + m, ?_⟩
      simp only [List.map_cons, solveAtoms]
      rw [M.bind_run]
      rcases solveSingle_depth hwf (Nat.le_add_right n m) (hq (p, args) (by simp)).1 (hq (p, args) (by simp)).2 hb with e | e
      · exact absurd e h0
      · rw [← e, h1]
        dsimp only
        refine collect_fin ?_ []
        intro b' hb'
        have h2 := (solveAtoms_depth hwf (Nat.le_add_left m n) hq' (hs1 b' hb').1).ne (hm b' hb' (hs1 b' hb').1)
        obtain ⟨rs, h3, _⟩ := (solveAtoms_good hwf (fun q b hq hb => solve_good hwf (n + m) hq hb) hq' (hs1 b' hb').1).ok_of_ne h2
        exact ⟨rs, h3⟩

/-- A call without an endless chain returns. -/
theorem solveSingle_returns (hwf : WellFormed mods l w ar) {c : String × List Value} (hc : Acc (NextCall (programOf mods l w)) c) :
    ∀ args b, ar c.1 = some args.length → ArgsOk args → PlainB b → dbValues args b = c.2 →
      ∃ n, solveSingle (solverAt mods n) mods (toAtom (c.1, args)) b w ≠ .oof := by
  induction hc with
  | intro c _ ih =>
    obtain ⟨p, values⟩ := c
    intro args b hp hargs hb hval
    dsimp only at hp hval
    have hnd : p ≠ "$disjunction" := by
      rintro rfl; rw [hwf.noDisj] at hp; simp at hp
    have hdef := hwf.defined p _ hp
    -- every rule returns from some depth on
    have hrules : ∃ n, ruleRelation l p ∈ findRelations mods w p → ∀ rs, (l w).rules.get p = some rs → ∀ r ∈ rs,
        solveRule r args (solverAt mods n) b w ≠ .oof := by
      by_cases hmem : ruleRelation l p ∈ findRelations mods w p
      · obtain ⟨rs, hrs⟩ := hwf.rulesSome p _ hp hmem
        have hone : ∀ r ∈ rs, ∃ n, ∀ m, n ≤ m → solveRule r args (solverAt mods m) b w ≠ .oof := by
          intro r hr2
          obtain ⟨hargs'', body'', rfl, h1, h2, h3⟩ := hwf.rulesOk p _ hp rs hrs r hr2
          generalize hvs : Rule.variables { head := .str p :: hargs'', body := toQuery body'' } = vs
          have hwb : PlainB (b.without vs) := by
            intro x v hx
            rw [Dict.get_without] at hx
            split at hx
            · simp at hx
            · exact hb x v hx
          cases hrb : bindHead b hargs'' args (b.without vs) with
          | none =>
            refine ⟨0, fun m _ => solveRule_fin ?_⟩
            intro rb _ hrb'
            simp only [List.tail_cons] at hrb'
            rw [hvs, hrb] at hrb'
            cases hrb'
          | some rb =>
            obtain ⟨_, hrb', hho⟩ := bindHead_sound hb hargs hwb hrb
            obtain ⟨n, hn⟩ := solveAtoms_returns hwf h3 hrb' (fun c' hc' => ih c' (by
              obtain ⟨σ, hσp, hσ, pre, a, post, hsplit, hder, e⟩ := hc'
              refine ⟨hargs'', body'', ⟨hmem, rs, hrs, hr2⟩, σ, hσp, ?_, pre, a, post, hsplit, hder, ?_⟩
              · rw [← hval]; exact callsHead_of hσ h1 hho
              · rw [e, callValues_congr]
                intro x hx
                have hxv : x ∈ vs := by
                  rw [← hvs]
                  simp only [Rule.variables, List.mem_append, toQuery, varsOf, mem_varsOfList, List.mem_map]
                  refine .inr ⟨toAtom a, ⟨a, by rw [hsplit]; simp, rfl⟩, ?_⟩
                  simp only [toAtom, varsOf, mem_varsOfList]
                  exact ⟨.var x, List.mem_cons_of_mem _ hx, by simp [varsOf]⟩
                rw [bindHead_has hb hargs hrb, ← hval]
                have : (b.without vs).has x ≠ true := by simp [Dict.has, Dict.get_without, hxv]
                simp [this]))
            refine ⟨n + 1, fun m hm => solveRule_fin ?_⟩
            intro rb' _ hrb2
            simp only [List.tail_cons] at hrb2
            rw [hvs, hrb] at hrb2
            cases hrb2
            exact (solve_le hwf hm h3 hrb').ne hn
        obtain ⟨n, hn⟩ := common_depth (p := fun r n => ∀ m, n ≤ m → solveRule r args (solverAt mods m) b w ≠ .oof)
          (fun r n m hnm h k hk => h k (by omega)) hone
        exact ⟨n, fun _ rs' hrs' r hr => hn r (by rw [hrs] at hrs'; cases hrs'; exact hr) n (Nat.le_refl _)⟩
      · exact ⟨0, fun h => absurd h hmem⟩
    obtain ⟨n, hn⟩ := hrules
    refine ⟨n, ?_⟩
    simp only [toAtom, solveSingle_tuple, solveSingle.go, hnd, if_false, findRelationValues]
    rw [M.bind_run, M.bind_run]
    simp only [M.gets_run]
    have hrel : ∀ r ∈ findRelations mods w p, ∃ rows,
        r.query (dbValues args b) { predicate := r.predicate, columns := r.columns, arguments := args, binding := b, solver := solverAt mods n } w
          = .ok w (.rows rows) := by
      intro r hr
      rcases hwf.kinds p _ hp r hr with ⟨rows, htl⟩ | rfl
      · exact ⟨_, htl _ _⟩
      · obtain ⟨rs, hrs⟩ := hwf.rulesSome p _ hp hr
        have hn := hn hr rs hrs
        have hg : ∀ r ∈ rs, ∃ hargs body, r = { head := .str p :: hargs, body := toQuery body } ∧
            hargs.length = args.length ∧ ArgsOk hargs ∧ (programOf mods l w).rules p hargs body ∧ QueryOk ar body := by
          intro r hr2
          obtain ⟨hargs'', body'', e, h1, h2, h3⟩ := hwf.rulesOk p _ hp rs hrs r hr2
          exact ⟨hargs'', body'', e, h1, h2, ⟨hr, rs, hrs, e ▸ hr2⟩, h3⟩
        have hgood := solveRules_good (w := w) (P := programOf mods l w) (p := p) (args := args) (b := b) (solver := solverAt mods n)
          (rs := rs) (by
            intro r hr2
            obtain ⟨hargs'', body'', e, h1, h2, h3, h4⟩ := hg r hr2
            exact ⟨hargs'', body'', e, h1, h2, h3, fun b hb => solve_good hwf n h4 hb⟩) hb hargs [] (by simp)
        have hne : solveRules args (solverAt mods n) b rs [] w ≠ .oof := by
          refine solveRules_fin hn ?_ []
          intro r hr2 w' rows hok
          obtain ⟨hargs'', body'', rfl, h1, h2, h3, h4⟩ := hg r hr2
          rcases solveRule_good h3 (fun b hb => solve_good hwf n h4 hb) hb hargs h2 h1 with h | ⟨rows', h, _⟩
          · rw [hok] at h; simp at h
          · rw [hok] at h; simp only [Res.ok.injEq] at h; exact h.1
        rcases hgood with h | ⟨rows, h, _⟩
        · exact absurd h hne
        · refine ⟨rows, ?_⟩
          simp only [ruleRelation, handleRule]
          rw [M.bind_run]
          simp only [M.gets_run, hrs]
          rw [M.bind_run, h]
          rfl
    clear hn
    generalize findRelations mods w p = rels at hdef hrel
    cases rels with
    | nil => simp at hdef
    | cons r0 rs0 =>
      dsimp only
      cases hqr : queryRelations (solverAt mods n) (decide (0 < rs0.length)) args b (dbValues args b) (r0 :: rs0) [] w with
      | oof => exact absurd hqr (queryRelations_fin hrel [])
      | err => simp
      | ok w' o => exact resultsOf_fin _ _ _ _

/-- A query without an endless chain of calls returns, one with an endless chain does not. -/
theorem solve_returns_iff (hwf : WellFormed mods l w ar) (hrr : RangeRestricted (programOf mods l w)) {q : Query} (hq : QueryOk ar q) {b : Binding}
    (hb : PlainB b) : (∃ n, (solverAt mods n).solve (toQuery q) b w ≠ .oof) ↔ ¬ EndlessCalls (programOf mods l w) q b := by
  constructor
  · rintro ⟨n, hn⟩ ⟨chain, h0, hnext⟩
    refine hn (solve_endless hwf hrr (calls := fun p values => ∃ i, chain i = (p, values)) ?_ n hq hb ?_)
    · rintro p values ⟨i, hi⟩
      obtain ⟨hargs, body, h1, σ, h2, h3, pre, a, post, h4, h5, h6⟩ := hnext i
      rw [hi] at h1 h3 h6
      exact ⟨hargs, body, h1, σ, h2, h3, pre, a, post, h4, h5, i + 1, h6⟩
    · obtain ⟨σ, h2, h3, pre, a, post, h4, h5, h6⟩ := h0
      exact ⟨σ, h2, h3, pre, a, post, h4, h5, 0, h6⟩
  · intro h
    obtain ⟨n, hn⟩ := solveAtoms_returns hwf hq hb (fun c hc => solveSingle_returns hwf (acc_of_no_chain fun ⟨f, h0, hf⟩ => h ⟨f, h0 ▸ hc, hf⟩))
    exact ⟨n + 1, hn⟩

end

end Verif

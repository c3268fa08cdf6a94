import Verif.DatalogTerm

/-!
# Termination for recursive programs whose calls go down: lemmas
-/

namespace Verif

variable {W : Type}

open Classical in
/-- The values with which an atom is called when these variables are known; `none` where nothing is known (specification). -/
noncomputable def callValues (σ : Assignment) (known : String → Prop) (args : List Value) : List Value :=
  args.map fun a => match a with
    | .var x => if known x then σ x else .none
    | a => a

/-- A call with these values can match the head of a rule under the assignment (specification). -/
def CallsHead (σ : Assignment) : List Value → List Value → Prop
  | [], [] => True
  | h :: hs, v :: vs => (v = .none ∨ v = inst σ h) ∧ CallsHead σ hs vs
  | _, _ => False

/-- The variables of the head of a rule that are known in a call (specification). -/
def KnownIn (hargs values : List Value) (x : String) : Prop := ∃ p ∈ hargs.zip values, p.1 = .var x ∧ p.2 ≠ .none

/-- Calls go down: whenever a rule is called, each atom of its body is called, after the atoms before it have an answer, with values of a lower level
(specification; programs with this property are known as acceptable programs). -/
def CallsDescend (P : Program) (level : String → List Value → Nat) : Prop :=
  ∀ p hargs body, P.rules p hargs body → ∀ values (σ : Assignment), (∀ x, Plain (σ x)) → CallsHead σ hargs values →
    ∀ pre a post, body = pre ++ a :: post → (∀ c ∈ pre, Derivable P c.1 (c.2.map (inst σ))) →
    level a.1 (callValues σ (fun x => KnownIn hargs values x ∨ x ∈ queryVars pre) a.2) < level p values

/-- The calls of a query are below a level: the first atom is, and each next one, after the atoms before it have an answer (specification). -/
def CallsBelow (P : Program) (level : String → List Value → Nat) (q : Query) (b : Binding) (n : Nat) : Prop :=
  ∀ pre a post, q = pre ++ a :: post → ∀ σ : Assignment, (∀ x, Plain (σ x)) → (∀ x v, b.get x = some v → σ x = v) →
    (∀ c ∈ pre, Derivable P c.1 (c.2.map (inst σ))) → level a.1 (callValues σ (fun x => b.has x = true ∨ x ∈ queryVars pre) a.2) < n

/-- Calls go down from a level that is at most the rank of the predicate (specification). -/
def Descends (P : Program) (rank : String → Nat) : Prop := ∃ level, CallsDescend P level ∧ ∀ p values, level p values ≤ rank p

theorem callValues_congr {σ : Assignment} {k k' : String → Prop} {args : List Value} (h : ∀ x, Value.var x ∈ args → (k x ↔ k' x)) :
    callValues σ k args = callValues σ k' args := by
  apply List.map_congr_left
  intro a ha
  cases a <;> simp only
  rename_i x
  by_cases hk : k x
  · rw [if_pos hk, if_pos ((h x ha).1 hk)]
  · rw [if_neg hk, if_neg fun h' => hk ((h x ha).2 h')]

theorem callValues_db {σ : Assignment} {b : Binding} (h : ∀ x v, b.get x = some v → σ x = v) (args : List Value) :
    callValues σ (fun x => b.has x = true) args = dbValues args b := by
  apply List.map_congr_left
  intro a _
  cases a <;> simp only
  rename_i x _
  cases e : b.get x with
  | none => simp [Dict.has, e]
  | some v => simp [Dict.has, e, h x v e]

theorem dbValues_valueOf (a : Value) (as : List Value) (b : Binding) : dbValues (a :: as) b = (valueOf b a).getD .none :: dbValues as b := by
  simp only [dbValues, List.map_cons, List.cons.injEq, and_true]
  cases a <;> simp only [valueOf, Option.getD_some]
  rename_i x
  cases b.get x <;> rfl

theorem knownIn_cons {h v : Value} {hs vs : List Value} {x : String} :
    KnownIn (h :: hs) (v :: vs) x ↔ (h = .var x ∧ v ≠ .none) ∨ KnownIn hs vs x := by
  simp [KnownIn]

/-- The variables that are bound after the call is matched with the head. -/
theorem bindHead_has {b : Binding} (hb : PlainB b) {ras as : List Value} (has : ArgsOk as) {rb rb' : Binding}
    (h : bindHead b ras as rb = some rb') (x : String) : rb'.has x = true ↔ rb.has x = true ∨ KnownIn ras (dbValues as b) x := by
  induction ras generalizing as rb with
  | nil => simp only [bindHead, Option.some.injEq] at h; subst h; simp [KnownIn]
  | cons ra ras ih =>
    cases as with
    | nil => simp only [bindHead, Option.some.injEq] at h; subst h; simp [KnownIn, dbValues]
    | cons a as =>
      have has' : ArgsOk as := fun x hx => has x (List.mem_cons_of_mem _ hx)
      rw [dbValues_valueOf, knownIn_cons]
      rcases boundArg_cases hb (has a (by simp)) with ⟨h1, h2⟩ | ⟨h1, h2, h3⟩
      · rw [bindHead_skip _ _ _ _ _ _ h1] at h
        rw [ih has' h, h2]
        simp
      · rw [h2, Option.getD_some]
        cases hra : ra.isVar with
        | true =>
          cases ra <;> simp only [Value.isVar, Bool.false_eq_true] at hra
          rename_i rn
          rw [bindHead_var _ _ _ _ _ _ h1] at h
          have hrec : bindHead b ras as (rb.set rn (boundArg b a)) = some rb' := by
            cases hg : rb.get rn with
            | none => rw [hg] at h; exact h
            | some v =>
              rw [hg] at h
              simp only [ne_eq, ite_not] at h
              split at h
              · exact h
              · cases h
          rw [ih has' hrec]
          simp only [Dict.has, Dict.get_set, Value.var.injEq, ne_eq]
          by_cases e : rn = x
          · simp [e, h3.1]
          · simp [e]
        | false =>
          rw [bindHead_const _ _ hra _ _ _ _ h1] at h
          split at h
          · cases h
          · rw [ih has' h]
            have : ra ≠ .var x := by rintro rfl; simp [Value.isVar] at hra
            simp [this]

/-- A call that is matched with a head. -/
theorem callsHead_of {b rb : Binding} {σ : Assignment} (hσ : ∀ x v, rb.get x = some v → σ x = v) : ∀ {ras as : List Value}, ras.length = as.length →
    HeadOk b rb ras as → CallsHead σ ras (dbValues as b)
  | [], [], _, _ => trivial
  | ra :: ras, a :: as, hl, h => by
    rw [dbValues_valueOf]
    refine ⟨?_, callsHead_of hσ (by simpa using hl) h.2⟩
    cases e : valueOf b a with
    | none => exact .inl rfl
    | some v =>
      obtain ⟨h1, h2⟩ := h.1 v e
      refine .inr ?_
      cases hra : ra.isVar with
      | true =>
        cases ra <;> simp only [Value.isVar, Bool.false_eq_true] at hra
        simp only [Option.getD_some, inst]
        exact (hσ _ _ (h1 _ rfl)).symm
      | false =>
        rw [inst_const hra, Option.getD_some]
        exact (h2 hra).symm

section
variable {mods : List (Module W)} {l : W → InfState} {w : W} {ar : String → Option Nat} {level : String → List Value → Nat}

theorem solveSingle_level (hwf : WellFormed mods l w ar)
    (hdown : CallsDescend (programOf mods l w) level) {n : Nat} {api : SolverApi W}
    (hapi : ∀ q b, QueryOk ar q → PlainB b → Good (programOf mods l w) q b w (api.solve (toQuery q) b w))
    (hfin : ∀ q b, q ≠ [] → QueryOk ar q → PlainB b → CallsBelow (programOf mods l w) level q b n → api.solve (toQuery q) b w ≠ .oof)
    {p : String} {args : List Value} (hp : ar p = some args.length) (hargs : ArgsOk args)
    {b : Binding} (hb : PlainB b) (hpr : level p (dbValues args b) < n + 1) : solveSingle api mods (toAtom (p, args)) b w ≠ .oof := by
  have hnd : p ≠ "$disjunction" := by
    rintro rfl; rw [hwf.noDisj] at hp; simp at hp
  simp only [toAtom, solveSingle_tuple, solveSingle.go, hnd, if_false, findRelationValues]
  rw [M.bind_run, M.bind_run]
  simp only [M.gets_run]
  have hdef := hwf.defined p _ hp
  have hrel : ∀ r ∈ findRelations mods w p, ∃ rows,
      r.query (dbValues args b) { predicate := r.predicate, columns := r.columns, arguments := args, binding := b, solver := api } w
        = .ok w (.rows rows) := by
    intro r hr
    rcases hwf.kinds p _ hp r hr with ⟨rows, htl⟩ | rfl
    · exact ⟨_, htl _ _⟩
    · obtain ⟨rs, hrs⟩ := hwf.rulesSome p _ hp hr
      have hrules : ∀ r ∈ rs, ∃ hargs body, r = { head := .str p :: hargs, body := toQuery body } ∧
          hargs.length = args.length ∧ ArgsOk hargs ∧ (programOf mods l w).rules p hargs body ∧ QueryOk ar body := by
        intro r hr2
        obtain ⟨hargs'', body'', e, h1, h2, h3⟩ := hwf.rulesOk p _ hp rs hrs r hr2
        exact ⟨hargs'', body'', e, h1, h2, ⟨hr, rs, hrs, e ▸ hr2⟩, h3⟩
      have hgood := solveRules_good (w := w) (P := programOf mods l w) (p := p) (args := args) (b := b) (solver := api)
        (rs := rs) (by
          intro r hr2
          obtain ⟨hargs'', body'', e, h1, h2, h3, h4⟩ := hrules r hr2
          exact ⟨hargs'', body'', e, h1, h2, h3, fun b hb => hapi body'' b h4 hb⟩) hb hargs [] (by simp)
      have hne : solveRules args api b rs [] w ≠ .oof := by
        refine solveRules_fin ?_ ?_ []
        · intro r hr2
          obtain ⟨hargs'', body'', rfl, h1, h2, h3, h4⟩ := hrules r hr2
          refine solveRule_fin ?_
          intro rb hne hrb
          dsimp only at hrb hne ⊢
          simp only [List.tail_cons] at hrb
          generalize hvs : Rule.variables { head := .str p :: hargs'', body := toQuery body'' } = vs at hrb
          have hwb : PlainB (b.without vs) := by
            intro x v hx
            rw [Dict.get_without] at hx
            split at hx
            · simp at hx
            · exact hb x v hx
          obtain ⟨_, hrb', hho⟩ := bindHead_sound hb hargs hwb hrb
          by_cases hbody : body'' = []
          · subst hbody
            simp [toQuery, emptyBody] at hne
          · refine hfin body'' rb hbody h4 hrb' ?_
            intro pre a post hsplit σ hσp hσ hder
            have hlt := hdown p hargs'' body'' h3 (dbValues args b) σ hσp (callsHead_of hσ h1 hho) pre a post hsplit hder
            have hsame : callValues σ (fun x => rb.has x = true ∨ x ∈ queryVars pre) a.2 =
                callValues σ (fun x => KnownIn hargs'' (dbValues args b) x ∨ x ∈ queryVars pre) a.2 := by
              refine callValues_congr fun x hx => ?_
              have hxv : x ∈ vs := by
                rw [← hvs]
                simp only [Rule.variables, List.mem_append, toQuery, varsOf, mem_varsOfList, List.mem_map]
                refine .inr ⟨toAtom a, ⟨a, by rw [hsplit]; simp, rfl⟩, ?_⟩
                simp only [toAtom, varsOf, mem_varsOfList]
                exact ⟨.var x, List.mem_cons_of_mem _ hx, by simp [varsOf]⟩
              rw [bindHead_has hb hargs hrb]
              have : (b.without vs).has x ≠ true := by simp [Dict.has, Dict.get_without, hxv]
              simp [this]
            rw [hsame]
            omega
        · intro r hr2 w' rows hok
          obtain ⟨hargs'', body'', rfl, h1, h2, h3, h4⟩ := hrules r hr2
          rcases solveRule_good h3 (fun b hb => hapi body'' b h4 hb) hb hargs h2 h1 with h | ⟨rows', h, _⟩
          · rw [hok] at h; simp at h
          · rw [hok] at h; simp only [Res.ok.injEq] at h; exact h.1
      rcases hgood with h | ⟨rows, h, _⟩
      · exact absurd h hne
      · refine ⟨rows, ?_⟩
        simp only [ruleRelation, handleRule]
        rw [M.bind_run]
        simp only [M.gets_run, hrs]
        rw [M.bind_run, h]
        rfl
  generalize findRelations mods w p = rels at hdef hrel
  cases rels with
  | nil => simp at hdef
  | cons r0 rs0 =>
    dsimp only
    cases hqr : queryRelations api (decide (0 < rs0.length)) args b (dbValues args b) (r0 :: rs0) [] w with
    | oof => exact absurd hqr (queryRelations_fin hrel [])
    | err => simp
    | ok w' o => exact resultsOf_fin _ _ _ _

/-- Some assignment agrees with the binding. -/
theorem plain_assignment {b : Binding} (hb : PlainB b) : ∃ σ : Assignment, (∀ x, Plain (σ x)) ∧ ∀ x v, b.get x = some v → σ x = v := by
  refine ⟨fun x => (b.get x).getD (.num 0), fun x => ?_, fun x v hx => by simp [hx]⟩
  cases hx : b.get x with
  | none => simp [hx, Plain, Value.isVar, legal]
  | some v => simpa [hx] using hb x v hx

theorem CallsBelow.head {P : Program} {p : String} {args : List Value} {q : Query} {b : Binding} {n : Nat}
    (h : CallsBelow P level ((p, args) :: q) b n) (hb : PlainB b) : level p (dbValues args b) < n := by
  obtain ⟨σ, h1, h2⟩ := plain_assignment hb
  have h3 := h [] (p, args) q rfl σ h1 h2 (by simp)
  rw [← callValues_db h2 args]
  simpa [queryVars] using h3

theorem CallsBelow.tail {P : Program} {a : String × List Value} {q : Query} {b : Binding} {n : Nat}
    (h : CallsBelow P level (a :: q) b n) {bs : List Binding} (hs : SoundB P [a] b bs) {b' : Binding} (hb' : b' ∈ bs) : CallsBelow P level q b' n := by
  intro pre c post hsplit σ hσp hσ hder
  obtain ⟨_, h2, h3, h4⟩ := hs b' hb'
  have hlt := h (a :: pre) c post (by rw [hsplit]; rfl) σ hσp (fun x v hx => hσ x v (h2 x v hx)) (by
    intro c' hc'
    rcases List.mem_cons.1 hc' with rfl | hc'
    · exact h4 σ hσ _ (by simp)
    · exact hder c' hc')
  rw [callValues_congr (k' := fun x => b.has x = true ∨ x ∈ queryVars (a :: pre))]
  · exact hlt
  · intro x _
    rw [h3]
    simp only [queryVars, List.flatMap_cons, List.flatMap_nil, List.append_nil, List.mem_append, or_assoc]

theorem solveAtoms_level (hwf : WellFormed mods l w ar)
    (hdown : CallsDescend (programOf mods l w) level) {n : Nat} {api : SolverApi W}
    (hapi : ∀ q b, QueryOk ar q → PlainB b → Good (programOf mods l w) q b w (api.solve (toQuery q) b w))
    (hfin : ∀ q b, q ≠ [] → QueryOk ar q → PlainB b → CallsBelow (programOf mods l w) level q b n → api.solve (toQuery q) b w ≠ .oof)
    {q : Query} (hq : QueryOk ar q) {b : Binding} (hqr : CallsBelow (programOf mods l w) level q b (n + 1)) (hb : PlainB b) :
    solveAtoms api mods (q.map toAtom) b w ≠ .oof := by
  induction q generalizing b with
  | nil => simp [solveAtoms]
  | cons a q ih =>
    obtain ⟨p, args⟩ := a
    have h0 := solveSingle_level hwf hdown hapi hfin (hq (p, args) (by simp)).1 (hq (p, args) (by simp)).2 hb (hqr.head hb)
    have h1 := solveSingle_good hwf hapi (hq (p, args) (by simp)).1 (hq (p, args) (by simp)).2 hb
    cases q with
    | nil => exact h0
    | cons a2 rest =>
      have hq' : QueryOk ar (a2 :: rest) := fun a ha => hq a (List.mem_cons_of_mem _ ha)
      simp only [List.map_cons, solveAtoms]
      rw [M.bind_run]
      obtain ⟨bs, h1, hs1, _, hc1⟩ := h1.ok_of_ne h0
      rw [h1]
      dsimp only
      refine collect_fin ?_ []
      intro b' hb'
      have h2 := ih hq' (hqr.tail hs1 hb') (hs1 b' hb').1
      obtain ⟨rs, h3, _⟩ := (solveAtoms_good hwf hapi hq' (hs1 b' hb').1).ok_of_ne h2
      exact ⟨rs, h3⟩

theorem callsBelow_single {P : Program} {p : String} {args : List Value} {b : Binding} {n : Nat} (h : ∀ values, level p values < n) :
    CallsBelow P level [(p, args)] b n := by
  intro pre a post hsplit σ _ _ _
  cases pre with
  | nil => cases hsplit; exact h _
  | cons c pre => simp at hsplit

theorem solve_level (hwf : WellFormed mods l w ar)
    (hdown : CallsDescend (programOf mods l w) level) (n : Nat)
    {q : Query} (hq : QueryOk ar q) {b : Binding} (hqr : CallsBelow (programOf mods l w) level q b (n + 1)) (hb : PlainB b) :
    (solverAt mods (n + 1)).solve (toQuery q) b w ≠ .oof := by
  induction n generalizing q b with
  | zero =>
    refine solveAtoms_level hwf hdown (fun q b hq hb => solve_good hwf 0 hq hb) ?_ hq hqr hb
    intro q b hne _ hb hr
    cases q with
    | nil => exact absurd rfl hne
    | cons a q => exact absurd (hr.head hb) (by omega)
  | succ n ih =>
    exact solveAtoms_level hwf hdown (fun q b hq hb => solve_good hwf (n + 1) hq hb)
      (fun q b _ hq hb hr => ih hq hr hb) hq hqr hb

end

end Verif

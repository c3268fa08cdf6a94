import Verif.DatalogLevel

/-!
# Calls that go on forever: lemmas
-/

namespace Verif

variable {W : Type}

/-- Each call leads to another one of these: some rule matches it, and an atom of the body is, after the atoms before it have an answer, called with
values among these (specification). -/
def CallsGoOn (P : Program) (calls : String → List Value → Prop) : Prop :=
  ∀ p values, calls p values → ∃ hargs body, P.rules p hargs body ∧ ∃ σ : Assignment, (∀ x, Plain (σ x)) ∧ CallsHead σ hargs values ∧
    ∃ pre a post, body = pre ++ a :: post ∧ (∀ c ∈ pre, Derivable P c.1 (c.2.map (inst σ))) ∧
      calls a.1 (callValues σ (fun x => KnownIn hargs values x ∨ x ∈ queryVars pre) a.2)

/-- A query makes one of these calls: an atom is, after the atoms before it have an answer, called with values among these (specification). -/
def MakesCall (P : Program) (calls : String → List Value → Prop) (q : Query) (b : Binding) : Prop :=
  ∃ σ : Assignment, (∀ x, Plain (σ x)) ∧ Agrees σ b ∧ ∃ pre a post, q = pre ++ a :: post ∧ (∀ c ∈ pre, Derivable P c.1 (c.2.map (inst σ))) ∧
    calls a.1 (callValues σ (fun x => b.has x = true ∨ x ∈ queryVars pre) a.2)

theorem queryRelations_oof {api : SolverApi W} {mult : Bool} {args : List Value} {b : Binding} {db : List Value}
    {w : W} {rels : List (Relation W)}
    (h : ∀ r ∈ rels,
      r.query db { predicate := r.predicate, columns := r.columns, arguments := args, binding := b, solver := api } w = .oof ∨
      ∃ rows, r.query db { predicate := r.predicate, columns := r.columns, arguments := args, binding := b, solver := api } w
        = .ok w (.rows rows))
    (he : ∃ r ∈ rels, r.query db { predicate := r.predicate, columns := r.columns, arguments := args, binding := b, solver := api } w = .oof)
    (acc : List (List Value)) : queryRelations api mult args b db rels acc w = .oof := by
  induction rels generalizing acc with
  | nil => simp at he
  | cons r rels ih =>
    simp only [queryRelations]
    rcases h r (by simp) with h1 | ⟨rows, h1⟩
    · rw [M.bind_run, h1]
    · rw [M.bind_ok h1]
      refine ih (fun r hr => h r (List.mem_cons_of_mem _ hr)) ?_ _
      obtain ⟨r', hr', h2⟩ := he
      rcases List.mem_cons.1 hr' with rfl | hr'
      · rw [h1] at h2; cases h2
      · exact ⟨r', hr', h2⟩

theorem solveRules_oof {args : List Value} {solver : SolverApi W} {b : Binding} {w : W} {rs : List Rule}
    (h : ∀ r ∈ rs, solveRule r args solver b w = .oof ∨ ∃ rows, solveRule r args solver b w = .ok w rows)
    (he : ∃ r ∈ rs, solveRule r args solver b w = .oof) (acc : List (List Value)) : solveRules args solver b rs acc w = .oof := by
  induction rs generalizing acc with
  | nil => simp at he
  | cons r rs ih =>
    simp only [solveRules]
    rcases h r (by simp) with h1 | ⟨rows, h1⟩
    · rw [M.bind_run, h1]
    · rw [M.bind_ok h1]
      refine ih (fun r hr => h r (List.mem_cons_of_mem _ hr)) ?_ _
      obtain ⟨r', hr', h2⟩ := he
      rcases List.mem_cons.1 hr' with rfl | hr'
      · rw [h1] at h2; cases h2
      · exact ⟨r', hr', h2⟩

theorem collect_oof {f : Binding → M W SolOut} {w : W} {bs : List Binding}
    (h : ∀ b ∈ bs, f b w = .oof ∨ ∃ rs, f b w = .ok w (.rows rs)) (he : ∃ b ∈ bs, f b w = .oof) (acc : List Binding) :
    collect f bs acc w = .oof := by
  induction bs generalizing acc with
  | nil => simp at he
  | cons b bs ih =>
    simp only [collect]
    rcases h b (by simp) with h1 | ⟨rows, h1⟩
    · rw [M.bind_run, h1]
    · rw [M.bind_ok h1]
      refine ih (fun r hr => h r (List.mem_cons_of_mem _ hr)) ?_ _
      obtain ⟨r', hr', h2⟩ := he
      rcases List.mem_cons.1 hr' with rfl | hr'
      · rw [h1] at h2; cases h2
      · exact ⟨r', hr', h2⟩

/-- A call that can match the head does. -/
theorem bindHead_calls {b : Binding} (hb : PlainB b) {ras as : List Value} (has : ArgsOk as) {rb : Binding} {τ : Assignment}
    (hτ : Agrees τ rb) (hc : CallsHead τ ras (dbValues as b)) : ∃ rb', bindHead b ras as rb = some rb' ∧ Agrees τ rb' := by
  induction ras generalizing as rb with
  | nil => exact ⟨rb, by simp [bindHead], hτ⟩
  | cons ra ras ih =>
    cases as with
    | nil => exact ⟨rb, by simp [bindHead], hτ⟩
    | cons a as =>
      have has' : ArgsOk as := fun x hx => has x (List.mem_cons_of_mem _ hx)
      rw [dbValues_valueOf] at hc
      rcases boundArg_cases hb (has a (by simp)) with ⟨h1, h2⟩ | ⟨h1, h2, h3⟩
      · rw [bindHead_skip _ _ _ _ _ _ h1]; exact ih has' hτ hc.2
      · rw [h2, Option.getD_some] at hc
        have hv : boundArg b a = inst τ ra := hc.1.resolve_left h3.1
        cases hra : ra.isVar with
        | true =>
          cases ra <;> simp only [Value.isVar, Bool.false_eq_true] at hra
          rename_i rn
          rw [bindHead_var _ _ _ _ _ _ h1]
          simp only [inst] at hv
          have hτ' : Agrees τ (rb.set rn (boundArg b a)) := by
            intro x v hx
            rw [Dict.get_set] at hx
            split at hx
            · rename_i e
              rw [← e, ← hv]; simpa using hx
            · exact hτ x v hx
          cases hg : rb.get rn with
          | none => exact ih has' hτ' hc.2
          | some v =>
            have : v = boundArg b a := by rw [hv, hτ rn v hg]
            simp only [this, ne_eq, not_true_eq_false, if_false]
            exact ih has' hτ' hc.2
        | false =>
          rw [bindHead_const _ _ hra _ _ _ _ h1]
          rw [inst_const hra] at hv
          rw [if_neg (by simpa using hv)]
          exact ih has' hτ hc.2

theorem callsHead_congr {σ τ : Assignment} : ∀ {hargs values : List Value}, (∀ x, Value.var x ∈ hargs → σ x = τ x) →
    CallsHead σ hargs values → CallsHead τ hargs values
  | [], [], _, _ => trivial
  | h :: hs, v :: vs, he, hc => by
    refine ⟨?_, callsHead_congr (fun x hx => he x (List.mem_cons_of_mem _ hx)) hc.2⟩
    have : inst σ h = inst τ h := by
      cases h <;> try rfl
      exact he _ (by simp)
    rw [← this]; exact hc.1

theorem callValues_assignment {σ τ : Assignment} {k : String → Prop} {args : List Value} (h : ∀ x, Value.var x ∈ args → σ x = τ x) :
    callValues σ k args = callValues τ k args := by
  refine List.map_congr_left fun a ha => ?_
  cases a <;> try rfl
  simp only [h _ ha]

section
variable {mods : List (Module W)} {l : W → InfState} {w : W} {ar : String → Option Nat} {calls : String → List Value → Prop}

theorem solveSingle_endless (hwf : WellFormed mods l w ar)
    (hgo : CallsGoOn (programOf mods l w) calls) {api : SolverApi W}
    (hapi : ∀ q b, QueryOk ar q → PlainB b → Good (programOf mods l w) q b w (api.solve (toQuery q) b w))
    (hend : ∀ q b, QueryOk ar q → PlainB b → MakesCall (programOf mods l w) calls q b → api.solve (toQuery q) b w = .oof)
    {p : String} {args : List Value} (hp : ar p = some args.length) (hargs : ArgsOk args)
    {b : Binding} (hb : PlainB b) (hc : calls p (dbValues args b)) : solveSingle api mods (toAtom (p, args)) b w = .oof := by
  have hnd : p ≠ "$disjunction" := by
    rintro rfl; rw [hwf.noDisj] at hp; simp at hp
  simp only [toAtom, solveSingle_tuple, solveSingle.go, hnd, if_false, findRelationValues]
  rw [M.bind_run, M.bind_run]
  simp only [M.gets_run]
  obtain ⟨hargs0, body0, ⟨hmem0, rs0, hrs0, hin0⟩, σ, hσp, hσc, pre, a, post, hsplit, hder, hca⟩ := hgo p _ hc
  have hkind : ∀ rs, (l w).rules.get p = some rs → ruleRelation l p ∈ findRelations mods w p →
      (ruleRelation l p).query (dbValues args b) ⟨(ruleRelation l p).predicate, (ruleRelation l p).columns, args, b, api⟩ w = .oof := by
    intro rs hrs hr
    rw [hrs0] at hrs
    simp only [Option.some.injEq] at hrs
    subst hrs
    have hrules : ∀ r ∈ rs0, ∃ hargs body, r = { head := .str p :: hargs, body := toQuery body } ∧
        hargs.length = args.length ∧ ArgsOk hargs ∧ (programOf mods l w).rules p hargs body ∧ QueryOk ar body := by
      intro r hr2
      obtain ⟨hargs'', body'', e, h1, h2, h3⟩ := hwf.rulesOk p _ hp rs0 hrs0 r hr2
      exact ⟨hargs'', body'', e, h1, h2, ⟨hr, rs0, hrs0, e ▸ hr2⟩, h3⟩
    have hoof : solveRules args api b rs0 [] w = .oof := by
      refine solveRules_oof ?_ ?_ []
      · intro r hr2
        obtain ⟨hargs'', body'', rfl, h1, h2, h3, h4⟩ := hrules r hr2
        rcases solveRule_good h3 (fun b hb => hapi body'' b h4 hb) hb hargs h2 h1 with h | ⟨rows, h, _⟩
        · exact .inl h
        · exact .inr ⟨rows, h⟩
      · refine ⟨_, hin0, ?_⟩
        obtain ⟨hargs'', body'', e, h1, h2, h3, h4⟩ := hrules _ hin0
        simp only [Rule.mk.injEq, List.cons.injEq, true_and] at e
        obtain ⟨e1, e2⟩ := e
        subst e1
        have e3 : body0 = body'' := by
          simp only [toQuery, Value.list.injEq] at e2
          refine (List.map_inj_right ?_).1 e2
          rintro ⟨p1, a1⟩ ⟨p2, a2⟩ h
          simpa [toAtom] using h
        subst e3
        unfold solveRule
        simp only [List.tail_cons]
        generalize hvs : Rule.variables { head := .str p :: hargs0, body := toQuery body0 } = vs
        have hvars : ∀ x, (Value.var x ∈ hargs0 ∨ ∃ a ∈ body0, Value.var x ∈ a.2) → x ∈ vs := by
          intro x hx
          rw [← hvs]
          simp only [Rule.variables, List.mem_append, toQuery, varsOf, mem_varsOfList, List.mem_map]
          rcases hx with hx | ⟨c, hc, hx⟩
          · exact .inl ⟨.var x, List.mem_cons_of_mem _ hx, by simp [varsOf]⟩
          · refine .inr ⟨toAtom c, ⟨c, hc, rfl⟩, ?_⟩
            simp only [toAtom, varsOf, mem_varsOfList]
            exact ⟨.var x, List.mem_cons_of_mem _ hx, by simp [varsOf]⟩
        have hwb : PlainB (b.without vs) := by
          intro x v hx
          rw [Dict.get_without] at hx
          split at hx
          · simp at hx
          · exact hb x v hx
        let τ : Assignment := fun x => if x ∈ vs then σ x else ((b.get x).getD (.num 0))
        have hτσ : ∀ x, x ∈ vs → σ x = τ x := fun x hx => by simp only [τ, if_pos hx]
        have hτp : ∀ x, Plain (τ x) := by
          intro x
          simp only [τ]
          split
          · exact hσp x
          · cases hx : b.get x with
            | none => simp [Plain, Value.isVar, legal]
            | some v => simpa using hb x v hx
        have hτb : Agrees τ (b.without vs) := by
          intro x v hx
          rw [Dict.get_without] at hx
          split at hx
          · simp at hx
          · rename_i hn
            simp only [τ, if_neg hn, hx, Option.getD_some]
        obtain ⟨rb, hrb, hτrb⟩ := bindHead_calls hb hargs hτb
          (callsHead_congr (fun x hx => hτσ x (hvars x (.inl hx))) hσc)
        obtain ⟨_, hrb', _⟩ := bindHead_sound hb hargs hwb hrb
        simp only [hrb]
        have hne : emptyBody (toQuery body0) = false := by rw [hsplit]; cases pre <;> simp [toQuery, emptyBody]
        simp only [hne, Bool.false_eq_true, if_false]
        rw [M.bind_run, hend body0 rb h4 hrb' ?_]
        refine ⟨τ, hτp, hτrb, pre, a, post, hsplit, ?_, ?_⟩
        · intro c hc
          have := hder c hc
          rwa [map_inst_congr (τ := τ)] at this
          intro x hx
          exact hτσ x (hvars x (.inr ⟨c, by rw [hsplit]; exact List.mem_append_left _ hc, hx⟩))
        · have hav : ∀ x, Value.var x ∈ a.2 → x ∈ vs := fun x hx => hvars x (.inr ⟨a, by rw [hsplit]; simp, hx⟩)
          rw [callValues_assignment (fun x hx => hτσ x (hav x hx)),
            callValues_congr (k' := fun x => rb.has x = true ∨ x ∈ queryVars pre)] at hca
          · exact hca
          · intro x hx
            rw [bindHead_has hb hargs hrb]
            have : (b.without vs).has x ≠ true := by simp [Dict.has, Dict.get_without, hav x hx]
            simp [this]
    simp only [ruleRelation, handleRule]
    rw [M.bind_run]
    simp only [M.gets_run, hrs0]
    rw [M.bind_run, hoof]
  have hall := queryRelations_oof (api := api) (mult := decide (0 < ((findRelations mods w p).length - 1))) (args := args) (b := b) (db := dbValues args b) (w := w)
    (rels := findRelations mods w p) (by
      intro r hr
      rcases hwf.kinds p _ hp r hr with ⟨rows, htl⟩ | rfl
      · exact .inr ⟨_, htl _ _⟩
      · exact .inl (hkind rs0 hrs0 hr)) ⟨_, hmem0, hkind rs0 hrs0 hmem0⟩ []
  generalize findRelations mods w p = rels at hall hmem0
  cases rels with
  | nil => simp at hmem0
  | cons r0 rs1 =>
    dsimp only
    simp only [List.length_cons, Nat.add_sub_cancel] at hall
    rw [hall]

theorem solveAtoms_endless (hwf : WellFormed mods l w ar) (hrr : RangeRestricted (programOf mods l w))
    (hgo : CallsGoOn (programOf mods l w) calls) {api : SolverApi W}
    (hapi : ∀ q b, QueryOk ar q → PlainB b → Good (programOf mods l w) q b w (api.solve (toQuery q) b w))
    (hend : ∀ q b, QueryOk ar q → PlainB b → MakesCall (programOf mods l w) calls q b → api.solve (toQuery q) b w = .oof)
    {σ : Assignment} (hσp : ∀ x, Plain (σ x)) {pre : Query} {a : String × List Value} {post : Query} {b : Binding}
    (hq : QueryOk ar (pre ++ a :: post)) (hb : PlainB b) (hσ : Agrees σ b)
    (hder : ∀ c ∈ pre, Derivable (programOf mods l w) c.1 (c.2.map (inst σ)))
    (hca : calls a.1 (callValues σ (fun x => b.has x = true ∨ x ∈ queryVars pre) a.2)) :
    solveAtoms api mods ((pre ++ a :: post).map toAtom) b w = .oof := by
  induction pre generalizing b with
  | nil =>
    simp only [queryVars, List.flatMap_nil, List.not_mem_nil, or_false] at hca
    rw [callValues_db hσ] at hca
    have h := solveSingle_endless hwf hgo hapi hend (hq a (by simp)).1 (hq a (by simp)).2 hb hca
    cases post with
    | nil => exact h
    | cons c post =>
      simp only [List.nil_append, List.map_cons, solveAtoms]
      rw [M.bind_run, h]
  | cons c pre ih =>
    have hg := solveSingle_good hwf hapi (hq c (by simp)).1 (hq c (by simp)).2 hb
    have hq' : QueryOk ar (pre ++ a :: post) := fun d hd => hq d (List.mem_cons_of_mem _ hd)
    have hstep : solveAtoms api mods ((c :: pre ++ a :: post).map toAtom) b = (do
        let o ← solveSingle api mods (toAtom c) b
        match o with
        | .rows bs => collect (solveAtoms api mods ((pre ++ a :: post).map toAtom)) bs []
        | .iter _ 0 => pure (.rows [])
        | .iter _ (_ + 1) => M.throw .attributeError) := by
      cases pre <;> simp only [List.cons_append, List.nil_append, List.map_cons, solveAtoms] <;> rfl
    rw [hstep, M.bind_run]
    rcases hg with h1 | ⟨bs, h1, hs1, _, hc1⟩
    · rw [h1]
    · rw [h1]
      dsimp only
      refine collect_oof ?_ ?_ []
      · intro b' hb'
        rcases solveAtoms_good hwf hapi hq' (hs1 b' hb').1 with h | ⟨rs, h, _⟩
        · exact .inl h
        · exact .inr ⟨rs, h⟩
      · obtain ⟨b', hb', hσ'⟩ := hc1 hrr σ hσp hσ (fun d hd => by
          rw [List.mem_singleton] at hd; subst hd; exact hder _ (by simp))
        refine ⟨b', hb', ih hq' (hs1 b' hb').1 hσ' (fun d hd => hder d (List.mem_cons_of_mem _ hd)) ?_⟩
        rw [callValues_congr (k' := fun x => b.has x = true ∨ x ∈ queryVars (c :: pre))]
        · exact hca
        · intro x _
          rw [(hs1 b' hb').2.2.1]
          simp only [queryVars, List.flatMap_cons, List.flatMap_nil, List.append_nil, List.mem_append, or_assoc]

theorem solve_endless (hwf : WellFormed mods l w ar) (hrr : RangeRestricted (programOf mods l w))
    (hgo : CallsGoOn (programOf mods l w) calls) (n : Nat) {q : Query} (hq : QueryOk ar q) {b : Binding} (hb : PlainB b)
    (hm : MakesCall (programOf mods l w) calls q b) : (solverAt mods n).solve (toQuery q) b w = .oof := by
  induction n generalizing q b with
  | zero => rfl
  | succ n ih =>
    obtain ⟨σ, hσp, hσ, pre, a, post, rfl, hder, hca⟩ := hm
    exact solveAtoms_endless hwf hrr hgo (fun q b hq hb => solve_good hwf n hq hb) (fun q b hq hb hm => ih hq hb hm) hσp hq hb hσ hder hca

end

end Verif

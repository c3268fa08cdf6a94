import Verif.Props.Datalog

/-!
# C65, C66, C67, C68: what does and what does not matter for the answers

All four compare two runs. Both knowledge bases consist of the core module, modules that answer from stored rows, and an inference
module with rules that were inserted one by one; they may be built differently and live in different worlds.
-/

namespace Verif

/-- A model with stored rows and rules: the core module, modules with stored rows, an inference module with the rules `rs`, more
modules with stored rows (`Model.py:10-24`, `InferenceModule.py:17-35`). -/
structure KnowledgeBase (W : Type) (ar : String → Option Nat) (tables : List (Dict (List (List Value)))) (rs : List HornRule) where
  lens : Lens W InfState
  world : W
  before : List (Module W)
  after : List (Module W)
  dbs : List (Dict (List (List Value)))
  dbs' : List (Dict (List (List Value)))
  split : tables = dbs ++ dbs'
  facts : FactModules ar world before dbs
  facts' : FactModules ar world after dbs'
  ok : ProgramOk W ar tables rs
  inserted : insertAll (rs.map HornRule.toRule) InfState.init = .ok (lens.get world)

section
variable {W : Type} {ar : String → Option Nat} {tables : List (Dict (List (List Value)))} {rs : List HornRule}

/-- Solving a query (`Solver.py:22-31`) with nesting bounded by `n`. -/
def KnowledgeBase.ask (K : KnowledgeBase W ar tables rs) (n : Nat) (q : Query) (b : Binding) : Res W SolOut :=
  (solverAt (modelOf (K.before ++ inferenceModule K.lens :: K.after)) n).solve (toQuery q) b K.world

theorem KnowledgeBase.exact (K : KnowledgeBase W ar tables rs) {n : Nat} {q : Query} (hq : QueryOk ar q) {b : Binding} (hb : PlainB b)
    {w' : W} {bs : List Binding} (h : K.ask n q b = .ok w' (.rows bs)) :
    SoundB (program tables rs) q b bs ∧ NoDup bs ∧ (HeadsBound rs → CompleteB (program tables rs) q b bs) := by
  have hok : ProgramOk W ar (K.dbs ++ K.dbs') rs := K.split ▸ K.ok
  have hh := holds_inference K.lens K.world ar K.facts K.facts' rs hok K.inserted
  rw [← K.split] at hh
  rcases solve_good (holds_wellFormed K.ok hh) n hq hb with h1 | ⟨bs', h1, h2, h3, h4⟩
  · rw [KnowledgeBase.ask] at h; rw [h] at h1; simp at h1
  · rw [KnowledgeBase.ask] at h; rw [h] at h1
    simp only [Res.ok.injEq, SolOut.rows.injEq] at h1
    obtain ⟨_, rfl⟩ := h1
    refine ⟨?_, h3, ?_⟩
    · intro b' hb'
      obtain ⟨a1, a2, a3, a4⟩ := h2 b' hb'
      exact ⟨a1, a2, a3, fun σ hσ a ha => (holds_derivable K.ok hh (hq a ha).1).1 (a4 σ hσ a ha)⟩
    · intro hrr σ hσp hσ hd
      exact h4 (fun p hargs body hr x hx => hrr _ (holds_rules hh hr) x hx) σ hσp hσ
        (fun a ha => (holds_derivable K.ok hh (hq a ha).1).2 (hd a ha))

end

/-! ## Comparing answers -/

/-- Completes a binding to an assignment of proper values. -/
def completion (b : Binding) : Assignment := fun x => (b.get x).getD (.num 0)

theorem completion_agrees (b : Binding) : Agrees (completion b) b := fun x v h => by simp [completion, h]

theorem completion_plain {b : Binding} (h : PlainB b) (x : String) : Plain (completion b x) := by
  simp only [completion]
  cases hx : b.get x with
  | none => exact ⟨by simp, rfl, rfl⟩
  | some v => exact h x v hx

/-- Answers that correspond to different answers are different; so there are not more of them. -/
theorem length_le_of_rel {R : Binding → Binding → Prop} {bs bs' : List Binding} (hnd : NoDup bs)
    (hinj : ∀ b1 ∈ bs, ∀ b2 ∈ bs, ∀ c ∈ bs', R b1 c → R b2 c → SameDict b1 b2) (h : ∀ b1 ∈ bs, ∃ c ∈ bs', R b1 c) :
    bs.length ≤ bs'.length := by
  induction bs generalizing bs' with
  | nil => simp
  | cons b bs ih =>
    obtain ⟨c, hc, hs⟩ := h b (by simp)
    obtain ⟨l1, l2, rfl⟩ := List.append_of_mem hc
    have hnd' := List.pairwise_cons.1 hnd
    have hsub : ∀ c' ∈ l1 ++ l2, c' ∈ l1 ++ c :: l2 := by
      intro c' hc'
      rcases List.mem_append.1 hc' with h | h <;> simp [h]
    have := ih (bs' := l1 ++ l2) hnd'.2
      (fun b1 h1 b2 h2 c' hc' => hinj b1 (by simp [h1]) b2 (by simp [h2]) c' (hsub c' hc')) (fun b1 hb1 => by
      obtain ⟨c', hc', hs'⟩ := h b1 (by simp [hb1])
      refine ⟨c', ?_, hs'⟩
      have hne : c' ≠ c := by
        rintro rfl
        exact hnd'.1 b1 hb1 (hinj b (by simp) b1 (by simp [hb1]) c' hc hs hs')
      rcases List.mem_append.1 hc' with h | h
      · simp [h]
      · rcases List.mem_cons.1 h with rfl | h
        · exact absurd rfl hne
        · simp [h])
    simp only [List.length_append, List.length_cons] at this ⊢
    omega

theorem sameDict_of_agrees {σ : Assignment} {b1 b2 : Binding} (h1 : Agrees σ b1) (h2 : Agrees σ b2)
    (hd : ∀ x, b1.has x = true ↔ b2.has x = true) : SameDict b1 b2 := by
  intro x
  cases e1 : b1.get x with
  | none =>
    cases e2 : b2.get x with
    | none => rfl
    | some v => exact absurd ((hd x).2 ((Dict.has_iff _ _).2 ⟨v, e2⟩)) (by simp [Dict.has, e1])
  | some v =>
    obtain ⟨u, hu⟩ := (Dict.has_iff _ _).1 ((hd x).1 ((Dict.has_iff _ _).2 ⟨v, e1⟩))
    rw [hu, ← h2 x u hu, h1 x v e1]

/-- Answers of a program are answers of any program with more consequences. -/
theorem answers_mono {P P' : Program} {q : Query} {b : Binding} {bs bs' : List Binding}
    (hder : ∀ a ∈ q, ∀ row, Derivable P a.1 row → Derivable P' a.1 row)
    (hs : SoundB P q b bs) (hs' : SoundB P' q b bs') (hc' : CompleteB P' q b bs') :
    ∀ b1 ∈ bs, ∃ b2 ∈ bs', SameDict b1 b2 := by
  intro b1 hb1
  obtain ⟨hp1, he1, hd1, hder1⟩ := hs b1 hb1
  obtain ⟨b2, hb2, hag⟩ := hc' (completion b1) (completion_plain hp1) ((completion_agrees b1).mono he1)
    (fun a ha => hder a ha _ (hder1 _ (completion_agrees b1) a ha))
  obtain ⟨_, _, hd2, _⟩ := hs' b2 hb2
  exact ⟨b2, hb2, sameDict_of_agrees (completion_agrees b1) hag fun x => by rw [hd1, hd2]⟩

section
variable {W W' : Type} {ar ar' : String → Option Nat} {tables tables' : List (Dict (List (List Value)))} {rs rs' : List HornRule}

/-- Every stored row of the one is a stored row of the other; in which table and in which order does not matter. -/
def RowsIn (tables tables' : List (Dict (List (List Value)))) : Prop :=
  ∀ db ∈ tables, ∀ p rows, db.get p = some rows → ∀ row ∈ rows, ∃ db' ∈ tables', ∃ rows', db'.get p = some rows' ∧ row ∈ rows'

/-! ## C65 -/

/-- **C65** Adding facts and rules never removes an answer: an answer found with some knowledge is found with more knowledge. -/
theorem C65_more_knowledge (K : KnowledgeBase W ar tables rs) (K' : KnowledgeBase W' ar' tables' rs')
    (hrows : RowsIn tables tables') (hrules : ∀ r ∈ rs, r ∈ rs') (hrr : HeadsBound rs')
    {q : Query} (hq : QueryOk ar q) (hq' : QueryOk ar' q) {b : Binding} (hb : PlainB b) {n n' : Nat} {w1 : W} {w2 : W'} {bs bs' : List Binding}
    (h : K.ask n q b = .ok w1 (.rows bs)) (h' : K'.ask n' q b = .ok w2 (.rows bs')) :
    (∀ b1 ∈ bs, ∃ b2 ∈ bs', ∀ x, b1.get x = b2.get x) ∧ bs.length ≤ bs'.length := by
  obtain ⟨s1, d1, _⟩ := K.exact hq hb h
  obtain ⟨s2, _, c2⟩ := K'.exact hq' hb h'
  have := answers_mono (fun a _ row hd => hd.mono (Q := program tables' rs')
    (by rintro p row ⟨db, hdb, rows, hr, hm⟩; exact hrows db hdb p rows hr row hm)
    (by intro p hargs body hr; exact hrules _ hr)) s1 s2 (c2 hrr)
  exact ⟨this, noDup_length_le d1 this⟩

/-! ## C66 -/

/-- **C66** The order of facts and rules, repetitions, and the distribution of the facts over tables and modules do not matter. -/
theorem C66_order_of_knowledge (K : KnowledgeBase W ar tables rs) (K' : KnowledgeBase W' ar' tables' rs')
    (hrows : RowsIn tables tables') (hrows' : RowsIn tables' tables) (hrules : ∀ r, r ∈ rs ↔ r ∈ rs') (hrr : HeadsBound rs)
    {q : Query} (hq : QueryOk ar q) (hq' : QueryOk ar' q) {b : Binding} (hb : PlainB b) {n n' : Nat} {w1 : W} {w2 : W'} {bs bs' : List Binding}
    (h : K.ask n q b = .ok w1 (.rows bs)) (h' : K'.ask n' q b = .ok w2 (.rows bs')) :
    (∀ b1 ∈ bs, ∃ b2 ∈ bs', ∀ x, b1.get x = b2.get x) ∧ (∀ b2 ∈ bs', ∃ b1 ∈ bs, ∀ x, b2.get x = b1.get x) ∧
      bs.length = bs'.length := by
  have hrr' : HeadsBound rs' := fun r hr => hrr r ((hrules r).2 hr)
  obtain ⟨a1, a2⟩ := C65_more_knowledge K K' hrows (fun r => (hrules r).1) hrr' hq hq' hb h h'
  obtain ⟨b1, b2⟩ := C65_more_knowledge K' K hrows' (fun r => (hrules r).2) hrr hq' hq hb h' h
  exact ⟨a1, b1, Nat.le_antisymm a2 b2⟩

/-! ## C67 -/

/-- The query with the values of the bound variables in their places. -/
def fillQuery (b : Binding) (q : Query) : Query :=
  q.map fun a => (a.1, a.2.map fun v => match v with | .var x => (b.get x).getD (.var x) | v => v)

theorem mem_fillQuery {b : Binding} {q : Query} {c : String × List Value} :
    c ∈ fillQuery b q ↔ ∃ a ∈ q, c = (a.1, a.2.map fun v => match v with | .var x => (b.get x).getD (.var x) | v => v) := by
  simp only [fillQuery, List.mem_map]
  exact ⟨fun ⟨a, ha, e⟩ => ⟨a, ha, e.symm⟩, fun ⟨a, ha, e⟩ => ⟨a, ha, e.symm⟩⟩

theorem fillQuery_vars {b : Binding} (hb : PlainB b) {q : Query} {x : String} : x ∈ queryVars (fillQuery b q) ↔ x ∈ queryVars q ∧ b.has x = false := by
  simp only [mem_queryVars, mem_fillQuery]
  constructor
  · rintro ⟨c, ⟨a, ha, rfl⟩, hx⟩
    obtain ⟨v, hv, e⟩ := List.mem_map.1 hx
    cases v <;> simp only [reduceCtorEq] at e
    rename_i y
    cases hy : b.get y with
    | none =>
      rw [hy] at e
      simp only [Option.getD_none, Value.var.injEq] at e
      subst e
      exact ⟨⟨a, ha, hv⟩, by simp [Dict.has, hy]⟩
    | some u =>
      rw [hy] at e
      simp only [Option.getD_some] at e
      have := (hb y u hy).2.1
      rw [e] at this
      simp [Value.isVar] at this
  · rintro ⟨⟨a, ha, hx⟩, hno⟩
    have : b.get x = none := by cases h : b.get x with
      | none => rfl
      | some v => simp [Dict.has, h] at hno
    exact ⟨_, ⟨a, ha, rfl⟩, List.mem_map.2 ⟨.var x, hx, by simp [this]⟩⟩

theorem fillQuery_ok {b : Binding} (hb : PlainB b) {q : Query} (hq : QueryOk ar q) : QueryOk ar (fillQuery b q) := by
  intro c hc
  obtain ⟨a, ha, rfl⟩ := mem_fillQuery.1 hc
  refine ⟨by rw [(hq a ha).1]; simp, ?_⟩
  intro v hv hnv
  obtain ⟨u, hu, rfl⟩ := List.mem_map.1 hv
  have hokargs := (hq a ha).2 u hu
  cases u with
  | var x =>
    dsimp only at hnv ⊢
    cases hx : b.get x with
    | none => rw [hx] at hnv; simp [Value.isVar] at hnv
    | some u => exact hb x u hx
  | _ => exact hokargs rfl

theorem fillQuery_inst {b : Binding} (hb : PlainB b) {σ : Assignment} (hσ : Agrees σ b) (args : List Value) :
    (args.map fun v => match v with | .var x => (b.get x).getD (.var x) | v => v).map (inst σ) = args.map (inst σ) := by
  rw [List.map_map]
  apply List.map_congr_left
  intro v _
  cases v with
  | var x => ?_
  | _ => rfl
  simp only [Function.comp, inst]
  cases hx : b.get x with
  | none => simp
  | some u =>
    have h1 := hσ x u hx
    have h2 := (hb x u hx).2.1
    rw [h1]
    cases u <;> simp_all [Value.isVar]

theorem agrees_append {σ : Assignment} {b c : Binding} (hb : Agrees σ b) (hc : ∀ x v, c.get x = some v → b.has x = false → σ x = v)
    {d : Binding} (hd : ∀ x v, d.get x = some v → b.get x = some v ∨ (b.has x = false ∧ c.get x = some v)) : Agrees σ d := by
  intro x v hx
  rcases hd x v hx with h | ⟨h1, h2⟩
  · exact hb x v h
  · exact hc x v h2 h1

/-- **C67** A bound variable acts like its value: solving a query with a binding and solving the query with the values filled in, with
no binding at all, give the same values to the other variables, in equally many answers. -/
theorem C67_bound_variables (K : KnowledgeBase W ar tables rs) (hrr : HeadsBound rs)
    {q : Query} (hq : QueryOk ar q) {b : Binding} (hb : PlainB b) {n n' : Nat} {w1 w2 : W} {bs bs' : List Binding}
    (h : K.ask n q b = .ok w1 (.rows bs)) (h' : K.ask n' (fillQuery b q) [] = .ok w2 (.rows bs')) :
    (∀ b1 ∈ bs, ∃ b2 ∈ bs', ∀ x, b.has x = false → b1.get x = b2.get x) ∧
    (∀ b2 ∈ bs', ∃ b1 ∈ bs, ∀ x, b.has x = false → b1.get x = b2.get x) ∧ bs.length = bs'.length := by
  have hb0 : PlainB ([] : Binding) := fun x v hx => by simp at hx
  obtain ⟨s1, d1, c1⟩ := K.exact hq hb h
  obtain ⟨s2, d2, c2⟩ := K.exact (fillQuery_ok hb hq) hb0 h'
  have c1 := c1 hrr
  have c2 := c2 hrr
  have dom1 : ∀ b1 ∈ bs, ∀ x, b.has x = false → (b1.has x = true ↔ x ∈ queryVars q) := by
    intro b1 hb1 x hx
    rw [(s1 b1 hb1).2.2.1 x, hx]; simp
  have dom2 : ∀ b2 ∈ bs', ∀ x, b2.has x = true ↔ x ∈ queryVars q ∧ b.has x = false := by
    intro b2 hb2 x
    rw [(s2 b2 hb2).2.2.1 x, fillQuery_vars hb]
    simp [Dict.has]
  have same : ∀ b1 ∈ bs, ∀ b2 ∈ bs', ∀ σ, Agrees σ b1 → Agrees σ b2 → ∀ x, b.has x = false → b1.get x = b2.get x := by
    intro b1 hb1 b2 hb2 σ a1 a2 x hx
    have e1 := dom1 b1 hb1 x hx
    have e2 := dom2 b2 hb2 x
    cases g1 : b1.get x with
    | none =>
      cases g2 : b2.get x with
      | none => rfl
      | some v => exact absurd (e1.2 (e2.1 ((Dict.has_iff _ _).2 ⟨v, g2⟩)).1) (by simp [Dict.has, g1])
    | some v =>
      obtain ⟨u, hu⟩ := (Dict.has_iff _ _).1 (e2.2 ⟨e1.1 ((Dict.has_iff _ _).2 ⟨v, g1⟩), hx⟩)
      rw [hu, ← a2 x u hu, a1 x v g1]
  have f1 : ∀ b1 ∈ bs, ∃ b2 ∈ bs', ∀ x, b.has x = false → b1.get x = b2.get x := by
    intro b1 hb1
    obtain ⟨p1, x1, _, e1⟩ := s1 b1 hb1
    have hag : Agrees (completion b1) b := (completion_agrees b1).mono x1
    obtain ⟨b2, hb2, hag2⟩ := c2 (completion b1) (completion_plain p1) (fun x v hx => by simp at hx) (by
      intro c hc
      obtain ⟨a, ha, rfl⟩ := mem_fillQuery.1 hc
      rw [fillQuery_inst hb hag]
      exact e1 _ (completion_agrees b1) a ha)
    exact ⟨b2, hb2, same b1 hb1 b2 hb2 _ (completion_agrees b1) hag2⟩
  have f2 : ∀ b2 ∈ bs', ∃ b1 ∈ bs, ∀ x, b.has x = false → b1.get x = b2.get x := by
    intro b2 hb2
    obtain ⟨p2, _, _, e2⟩ := s2 b2 hb2
    let σ : Assignment := fun x => if b.has x = true then completion b x else completion b2 x
    have hσb : Agrees σ b := by
      intro x v hx
      have : b.has x = true := (Dict.has_iff _ _).2 ⟨v, hx⟩
      simp only [σ, this, if_true]
      exact completion_agrees b x v hx
    have hσ2 : Agrees σ b2 := by
      intro x v hx
      have hno := ((dom2 b2 hb2 x).1 ((Dict.has_iff _ _).2 ⟨v, hx⟩)).2
      simp only [σ, hno, Bool.false_eq_true, if_false]
      exact completion_agrees b2 x v hx
    have hσp : ∀ x, Plain (σ x) := by
      intro x
      simp only [σ]
      split
      · exact completion_plain hb x
      · exact completion_plain p2 x
    obtain ⟨b1, hb1, hag1⟩ := c1 σ hσp hσb (by
      intro a ha
      have := e2 σ hσ2 _ (mem_fillQuery.2 ⟨a, ha, rfl⟩)
      rwa [fillQuery_inst hb hσb] at this)
    exact ⟨b1, hb1, same b1 hb1 b2 hb2 σ hag1 hσ2⟩
  refine ⟨f1, f2, Nat.le_antisymm (length_le_of_rel (R := fun b1 b2 => ∀ x, b.has x = false → b1.get x = b2.get x) d1 ?_ f1)
    (length_le_of_rel (R := fun b2 b1 => ∀ x, b.has x = false → b1.get x = b2.get x) d2 ?_ f2)⟩
  · intro b1 hb1 c1 hc1 b2 _ r1 r2 x
    cases hx : b.has x with
    | false => rw [r1 x hx, r2 x hx]
    | true =>
      obtain ⟨v, hv⟩ := (Dict.has_iff _ _).1 hx
      rw [(s1 b1 hb1).2.1 x v hv, (s1 c1 hc1).2.1 x v hv]
  · intro b2 hb2 c2 hc2 b1 _ r1 r2 x
    cases hx : b.has x with
    | false => rw [← r1 x hx, ← r2 x hx]
    | true =>
      have g : ∀ d ∈ bs', d.get x = none := by
        intro d hd
        cases hg : d.get x with
        | none => rfl
        | some v => have := ((dom2 d hd x).1 ((Dict.has_iff _ _).2 ⟨v, hg⟩)).2; rw [hx] at this; cases this
      rw [g b2 hb2, g c2 hc2]

/-! ## C68 -/

/-- Other names for the variables. -/
def rename (ρ : String → String) (args : List Value) : List Value := args.map fun v => match v with | .var x => .var (ρ x) | v => v

/-- Other names for the variables of a query. -/
def renameQuery (ρ : String → String) (q : Query) : Query := q.map fun a => (a.1, rename ρ a.2)

/-- Other names for the variables of a rule. -/
def HornRule.rename (ρ : String → String) (r : HornRule) : HornRule :=
  { pred := r.pred, args := Verif.rename ρ r.args, body := renameQuery ρ r.body }

theorem rename_inst (ρ : String → String) (σ : Assignment) (args : List Value) : (rename ρ args).map (inst σ) = args.map (inst (fun x => σ (ρ x))) := by
  rw [rename, List.map_map]
  apply List.map_congr_left
  intro v _
  cases v <;> rfl

theorem var_mem_rename {ρ : String → String} {args : List Value} {y : String} : .var y ∈ rename ρ args ↔ ∃ x, y = ρ x ∧ Value.var x ∈ args := by
  simp only [rename, List.mem_map]
  constructor
  · rintro ⟨v, hv, e⟩
    cases v <;> simp only [Value.var.injEq, reduceCtorEq] at e
    exact ⟨_, e.symm, hv⟩
  · rintro ⟨x, rfl, hx⟩; exact ⟨.var x, hx, rfl⟩

theorem renameQuery_vars {ρ : String → String} {q : Query} {y : String} : y ∈ queryVars (renameQuery ρ q) ↔ ∃ x ∈ queryVars q, y = ρ x := by
  simp only [mem_queryVars, renameQuery, List.mem_map]
  constructor
  · rintro ⟨c, ⟨a, ha, rfl⟩, hy⟩
    obtain ⟨x, e, hx⟩ := var_mem_rename.1 hy
    exact ⟨x, ⟨a, ha, hx⟩, e⟩
  · rintro ⟨x, ⟨a, ha, hx⟩, e⟩
    exact ⟨_, ⟨a, ha, rfl⟩, var_mem_rename.2 ⟨x, e, hx⟩⟩

theorem renameQuery_ok {ρ : String → String} {q : Query} (hq : QueryOk ar q) : QueryOk ar (renameQuery ρ q) := by
  intro c hc
  obtain ⟨a, ha, rfl⟩ := List.mem_map.1 hc
  refine ⟨by rw [(hq a ha).1]; simp [rename], ?_⟩
  intro v hv hnv
  obtain ⟨u, hu, rfl⟩ := List.mem_map.1 hv
  have hokargs := (hq a ha).2 u hu
  cases u with
  | var x => simp [Value.isVar] at hnv
  | _ => exact hokargs rfl

/-- The assignment of the renamed variables. -/
theorem pull_back {ρ : String → String} (hρ : ∀ x y, ρ x = ρ y → x = y) {σ : Assignment} (hσ : ∀ x, Plain (σ x)) {τ : Assignment} (hτ : ∀ x, Plain (τ x)) :
    ∃ σ' : Assignment, (∀ x, σ' (ρ x) = σ x) ∧ (∀ y, (∀ x, y ≠ ρ x) → σ' y = τ y) ∧ ∀ x, Plain (σ' x) := by
  classical
  refine ⟨fun y => if h : ∃ x, y = ρ x then σ h.choose else τ y, ?_, ?_, ?_⟩
  · intro x
    have h : ∃ x', ρ x = ρ x' := ⟨x, rfl⟩
    dsimp only
    rw [dif_pos h, ← hρ _ _ h.choose_spec]
  · intro y hy
    dsimp only
    rw [dif_neg]
    rintro ⟨x, hx⟩; exact hy x hx
  · intro y
    dsimp only
    split
    · exact hσ _
    · exact hτ _

/-- **C68** The names of the variables in a query do not matter: with other names the same values come out under these names. -/
theorem C68_query_renamed (K : KnowledgeBase W ar tables rs) (hrr : HeadsBound rs) {ρ : String → String} (hρ : ∀ x y, ρ x = ρ y → x = y)
    {q : Query} (hq : QueryOk ar q) {b b' : Binding} (hb : PlainB b) (hb' : PlainB b') (hbb : ∀ x, b'.get (ρ x) = b.get x)
    {n n' : Nat} {w1 w2 : W} {bs bs' : List Binding}
    (h : K.ask n q b = .ok w1 (.rows bs)) (h' : K.ask n' (renameQuery ρ q) b' = .ok w2 (.rows bs')) :
    (∀ b1 ∈ bs, ∃ b2 ∈ bs', ∀ x, b2.get (ρ x) = b1.get x) ∧ (∀ b2 ∈ bs', ∃ b1 ∈ bs, ∀ x, b2.get (ρ x) = b1.get x) ∧
      bs.length = bs'.length := by
  obtain ⟨s1, d1, c1⟩ := K.exact hq hb h
  obtain ⟨s2, d2, c2⟩ := K.exact (renameQuery_ok hq) hb' h'
  have c1 := c1 hrr
  have c2 := c2 hrr
  have hdom : ∀ b1 ∈ bs, ∀ b2 ∈ bs', ∀ x, b1.has x = true ↔ b2.has (ρ x) = true := by
    intro b1 hb1 b2 hb2 x
    rw [(s1 b1 hb1).2.2.1, (s2 b2 hb2).2.2.1, renameQuery_vars, Dict.has, Dict.has, hbb]
    constructor
    · rintro (h | h)
      · exact .inl h
      · exact .inr ⟨x, h, rfl⟩
    · rintro (h | ⟨y, hy, e⟩)
      · exact .inl h
      · rw [hρ _ _ e]; exact .inr hy
  have same : ∀ b1 ∈ bs, ∀ b2 ∈ bs', ∀ σ : Assignment, Agrees (fun x => σ (ρ x)) b1 → Agrees σ b2 → ∀ x, b2.get (ρ x) = b1.get x := by
    intro b1 hb1 b2 hb2 σ a1 a2 x
    have e := hdom b1 hb1 b2 hb2 x
    cases g1 : b1.get x with
    | none =>
      cases g2 : b2.get (ρ x) with
      | none => rfl
      | some v => exact absurd (e.2 ((Dict.has_iff _ _).2 ⟨v, g2⟩)) (by simp [Dict.has, g1])
    | some v =>
      obtain ⟨u, hu⟩ := (Dict.has_iff _ _).1 (e.1 ((Dict.has_iff _ _).2 ⟨v, g1⟩))
      rw [hu, ← a2 _ u hu, ← a1 x v g1]
  have f1 : ∀ b1 ∈ bs, ∃ b2 ∈ bs', ∀ x, b2.get (ρ x) = b1.get x := by
    intro b1 hb1
    obtain ⟨p1, x1, _, e1⟩ := s1 b1 hb1
    obtain ⟨σ, h1, h2, h3⟩ := pull_back hρ (completion_plain p1) (completion_plain hb')
    have hσ1 : Agrees (fun x => σ (ρ x)) b1 := by intro x v hx; dsimp only; rw [h1]; exact completion_agrees b1 x v hx
    have hσb : Agrees σ b' := by
      intro y v hy
      by_cases hex : ∃ x, y = ρ x
      · obtain ⟨x, rfl⟩ := hex
        rw [h1]
        exact completion_agrees b1 x v (x1 x v (by rw [← hbb]; exact hy))
      · rw [h2 y (fun x e => hex ⟨x, e⟩)]
        exact completion_agrees b' y v hy
    obtain ⟨b2, hb2, hag⟩ := c2 σ h3 hσb (by
      intro c hc
      obtain ⟨a, ha, rfl⟩ := List.mem_map.1 hc
      dsimp only
      rw [rename_inst]
      exact e1 _ hσ1 a ha)
    exact ⟨b2, hb2, same b1 hb1 b2 hb2 σ hσ1 hag⟩
  have f2 : ∀ b2 ∈ bs', ∃ b1 ∈ bs, ∀ x, b2.get (ρ x) = b1.get x := by
    intro b2 hb2
    obtain ⟨p2, x2, _, e2⟩ := s2 b2 hb2
    have hagb : Agrees (fun x => completion b2 (ρ x)) b := by
      intro x v hx
      exact completion_agrees b2 (ρ x) v (x2 _ v (by rw [hbb]; exact hx))
    obtain ⟨b1, hb1, hag⟩ := c1 (fun x => completion b2 (ρ x)) (fun x => completion_plain p2 _) hagb (by
      intro a ha
      have := e2 _ (completion_agrees b2) (a.1, rename ρ a.2) (List.mem_map.2 ⟨a, ha, rfl⟩)
      dsimp only at this
      rwa [rename_inst] at this)
    exact ⟨b1, hb1, same b1 hb1 b2 hb2 _ hag (completion_agrees b2)⟩
  refine ⟨f1, f2, Nat.le_antisymm (length_le_of_rel (R := fun b1 b2 => ∀ x, b2.get (ρ x) = b1.get x) d1 ?_ f1)
    (length_le_of_rel (R := fun b2 b1 => ∀ x, b2.get (ρ x) = b1.get x) d2 ?_ f2)⟩
  · intro b1 _ c1 _ b2 _ r1 r2 x
    rw [← r1 x, ← r2 x]
  · intro b2 hb2 c2 hc2 b1 _ r1 r2 y
    by_cases hex : ∃ x, y = ρ x
    · obtain ⟨x, rfl⟩ := hex
      rw [r1 x, r2 x]
    · have g : ∀ d ∈ bs', d.get y = b'.get y := by
        intro d hd
        cases hg : b'.get y with
        | some v => exact (s2 d hd).2.1 y v hg
        | none =>
          cases hg' : d.get y with
          | none => rfl
          | some v =>
            rcases ((s2 d hd).2.2.1 y).1 ((Dict.has_iff _ _).2 ⟨v, hg'⟩) with h | h
            · simp [Dict.has, hg] at h
            · obtain ⟨x, _, e⟩ := renameQuery_vars.1 h
              exact absurd ⟨x, e⟩ hex
      rw [g b2 hb2, g c2 hc2]

/-- Each rule is, up to the names of its variables, one of the others. -/
def RulesIn (rs rs' : List HornRule) : Prop :=
  ∀ r ∈ rs, ∃ r' ∈ rs', ∃ ρ : String → String, (∀ x y, ρ x = ρ y → x = y) ∧ (r' = r.rename ρ ∨ r = r'.rename ρ)

theorem derivable_renamed (hrows : RowsIn tables tables') (h : RulesIn rs rs') {p : String} {row : List Value}
    (hd : Derivable (program tables rs) p row) : Derivable (program tables' rs') p row := by
  induction hd with
  | fact hf =>
    obtain ⟨db, hdb, rows, hr, hm⟩ := hf
    exact .fact (hrows db hdb _ rows hr _ hm)
  | @rule p hargs body σ hr hσ _ ih =>
    obtain ⟨r', hr', ρ, hρ, e⟩ := h _ hr
    rcases e with e | e
    · obtain ⟨σ', h1, _, h3⟩ := pull_back hρ hσ hσ
      have e1 : hargs.map (inst σ) = r'.args.map (inst σ') := by
        rw [e, HornRule.rename]
        dsimp only
        rw [rename_inst]
        congr 2; funext x; rw [h1]
      have e2 : p = r'.pred := by rw [e]; rfl
      rw [e1, e2]
      refine .rule σ' (body := r'.body) hr' h3 ?_
      intro c hc
      rw [e] at hc
      obtain ⟨a, ha, rfl⟩ := List.mem_map.1 hc
      dsimp only
      rw [rename_inst]
      have := ih a ha
      rw [show (fun x => σ' (ρ x)) = σ from funext h1]
      exact this
    · simp only [HornRule.rename, HornRule.mk.injEq] at e
      obtain ⟨e1, e2, e3⟩ := e
      rw [e1, e2, rename_inst]
      refine .rule (fun x => σ (ρ x)) (body := r'.body) hr' (fun x => hσ _) ?_
      intro c hc
      have := ih (c.1, rename ρ c.2) (by rw [e3]; exact List.mem_map.2 ⟨c, hc, rfl⟩)
      dsimp only at this
      rwa [rename_inst] at this

/-- **C68** Nor do the names of the variables in the rules, even if they are the names used in the query. -/
theorem C68_rules_renamed (K : KnowledgeBase W ar tables rs) (K' : KnowledgeBase W' ar' tables' rs')
    (hrows : RowsIn tables tables') (hrows' : RowsIn tables' tables) (hrules : RulesIn rs rs') (hrules' : RulesIn rs' rs)
    (hrr : HeadsBound rs) (hrr' : HeadsBound rs')
    {q : Query} (hq : QueryOk ar q) (hq' : QueryOk ar' q) {b : Binding} (hb : PlainB b) {n n' : Nat} {w1 : W} {w2 : W'} {bs bs' : List Binding}
    (h : K.ask n q b = .ok w1 (.rows bs)) (h' : K'.ask n' q b = .ok w2 (.rows bs')) :
    (∀ b1 ∈ bs, ∃ b2 ∈ bs', ∀ x, b1.get x = b2.get x) ∧ (∀ b2 ∈ bs', ∃ b1 ∈ bs, ∀ x, b2.get x = b1.get x) ∧
      bs.length = bs'.length := by
  obtain ⟨s1, d1, c1⟩ := K.exact hq hb h
  obtain ⟨s2, d2, c2⟩ := K'.exact hq' hb h'
  have f1 := answers_mono (fun a _ row hd => derivable_renamed hrows hrules hd) s1 s2 (c2 hrr')
  have f2 := answers_mono (fun a _ row hd => derivable_renamed hrows' hrules' hd) s2 s1 (c1 hrr)
  exact ⟨f1, f2, Nat.le_antisymm (noDup_length_le d1 f1) (noDup_length_le d2 f2)⟩

end

namespace Ex

/-- A knowledge base with fixed tables in one module. -/
def tableKB {ar : String → Option Nat} {db : Dict (List (List Value))} {rs : List HornRule} {s : InfState} (ok : ProgramOk InfState ar [db] rs)
    (ins : insertAll (rs.map HornRule.toRule) InfState.init = .ok s) : KnowledgeBase InfState ar [db] rs where
  lens := Lens.id InfState
  world := s
  before := [db].map (tableModule InfState)
  after := [].map (tableModule InfState)
  dbs := [db]
  dbs' := []
  split := by simp
  facts := tableModules_fact _ _ _
  facts' := tableModules_fact _ _ _
  ok := ok
  inserted := ins

def familyKB : KnowledgeBase InfState familyAr [family] ancestorRules := tableKB family_ok family_inserted

/-- The rules in the other order and with other variables: `W` is also the variable of the query. -/
def ancestorRules' : List HornRule :=
  [⟨"ancestor", [.var "W", .var "Z"], [("parent", [.var "W", .var "X"]), ("ancestor", [.var "X", .var "Z"])]⟩,
   ⟨"ancestor", [.var "X", .var "W"], [("parent", [.var "X", .var "W"])]⟩]

theorem family_ok' : ProgramOk InfState familyAr [family] ancestorRules' := by
  refine ⟨family_ok.notReserved, ?_, family_ok.rowsOk, ?_⟩
  · intro p k h
    simp only [familyAr] at h
    split at h
    · rename_i e; subst e; exact .inl ⟨family, by simp, by decide⟩
    · split at h
      · rename_i e; subst e; exact .inr ⟨_, List.mem_cons_self, rfl⟩
      · simp at h
  · intro r hr
    simp only [ancestorRules', List.mem_cons, List.not_mem_nil, or_false] at hr
    rcases hr with rfl | rfl
    · refine ⟨rfl, ?_, ?_⟩
      · simp [ArgsOk, Value.isVar]
      · simp [QueryOk, ArgsOk, Value.isVar, familyAr]
    · refine ⟨rfl, ?_, ?_⟩
      · simp [ArgsOk, Value.isVar]
      · simp [QueryOk, ArgsOk, Value.isVar, familyAr]

def familyKB' : KnowledgeBase InfState familyAr [family] ancestorRules' :=
  tableKB (s := { relations := [("learn_rule", .learnRule), ("ancestor", .handleRule)]
                  rules := [("ancestor", ancestorRules'.map HornRule.toRule)] }) family_ok' (by decide +kernel)

theorem family_answers : ∃ w, familyKB.ask 6 [("ancestor", [.str "ann", .var "W"])] [] =
    .ok w (.rows [[("W", .str "bob")], [("W", .str "cas")], [("W", .str "dan")]]) := ⟨familyKB.world, family_query⟩

/-- The answers come in another order, as C68 allows. -/
theorem family_answers' : ∃ w, familyKB'.ask 6 [("ancestor", [.str "ann", .var "W"])] [] =
    .ok w (.rows [[("W", .str "dan")], [("W", .str "cas")], [("W", .str "bob")]]) := ⟨familyKB'.world, by decide +kernel⟩

/-- New names for the variables of the rules. -/
def names1 : String → String := fun x => if x = "Y" then "W" else if x = "W" then "Y" else x
def names2 : String → String := fun x => if x = "X" then "W" else if x = "Y" then "X" else if x = "W" then "Y" else x

theorem names1_inj (x y : String) (h : names1 x = names1 y) : x = y := by unfold names1 at h; grind
theorem names2_inj (x y : String) (h : names2 x = names2 y) : x = y := by unfold names2 at h; grind

theorem renamed1 : (ancestorRules'[1]'(by decide)) = (ancestorRules[0]'(by decide)).rename names1 := by
  simp [ancestorRules', ancestorRules, HornRule.rename, Verif.rename, renameQuery, names1]
theorem renamed2 : (ancestorRules'[0]'(by decide)) = (ancestorRules[1]'(by decide)).rename names2 := by
  simp [ancestorRules', ancestorRules, HornRule.rename, Verif.rename, renameQuery, names2]

theorem family_rulesIn : RulesIn ancestorRules ancestorRules' ∧ RulesIn ancestorRules' ancestorRules := by
  constructor
  · intro r hr
    simp only [ancestorRules, List.mem_cons, List.not_mem_nil, or_false] at hr
    rcases hr with rfl | rfl
    · exact ⟨_, List.getElem_mem (by decide), names1, names1_inj, .inl renamed1⟩
    · exact ⟨_, List.getElem_mem (by decide), names2, names2_inj, .inl renamed2⟩
  · intro r hr
    simp only [ancestorRules', List.mem_cons, List.not_mem_nil, or_false] at hr
    rcases hr with rfl | rfl
    · exact ⟨_, List.getElem_mem (by decide), names2, names2_inj, .inr renamed2⟩
    · exact ⟨_, List.getElem_mem (by decide), names1, names1_inj, .inr renamed1⟩

theorem heads' : HeadsBound ancestorRules' := by
  intro r hr x hx
  simp only [ancestorRules', List.mem_cons, List.not_mem_nil, or_false] at hr
  rcases hr with rfl | rfl <;> simp [queryVars] at hx ⊢ <;> grind

theorem rowsIn_refl (tables : List (Dict (List (List Value)))) : RowsIn tables tables :=
  fun db hdb _ rows hr _ hm => ⟨db, hdb, rows, hr, hm⟩

theorem plainB_nil : PlainB ([] : Binding) := by intro x v h; simp at h

example : True := by
  obtain ⟨w, h⟩ := family_answers
  obtain ⟨w', h'⟩ := family_answers'
  have := C68_rules_renamed familyKB familyKB' (rowsIn_refl _) (rowsIn_refl _) family_rulesIn.1 family_rulesIn.2 ancestor_heads heads'
    family_query_ok family_query_ok plainB_nil h h'
  trivial

/-- Another query variable. -/
example : True := by
  obtain ⟨w, h⟩ := family_answers
  have h' : familyKB.ask 6 (renameQuery names1 [("ancestor", [.str "ann", .var "W"])]) [] = .ok familyKB.world
    (.rows [[("Y", .str "bob")], [("Y", .str "cas")], [("Y", .str "dan")]]) := by decide +kernel
  have := C68_query_renamed familyKB ancestor_heads names1_inj family_query_ok plainB_nil plainB_nil (by simp) h h'
  trivial

/-- `ancestor(V, W)` with `V` bound to `ann`. -/
example : True := by
  have h : familyKB.ask 6 [("ancestor", [.var "V", .var "W"])] [("V", .str "ann")] = .ok familyKB.world
    (.rows [[("V", .str "ann"), ("W", .str "bob")], [("V", .str "ann"), ("W", .str "cas")], [("V", .str "ann"), ("W", .str "dan")]]) := by
    decide +kernel
  obtain ⟨w, h'⟩ := family_answers
  have := C67_bound_variables familyKB ancestor_heads (q := [("ancestor", [.var "V", .var "W"])])
    (by simp [QueryOk, ArgsOk, Value.isVar, familyAr]) (b := [("V", .str "ann")])
    (by
      intro x v hx
      simp only [Dict.get] at hx
      split at hx
      · simp only [Option.some.injEq] at hx
        subst hx
        exact ⟨by simp, rfl, rfl⟩
      · simp at hx) h h'
  trivial

/-- Without the second rule there are fewer answers, all of them among those with both rules. -/
def parentRules : List HornRule := [⟨"ancestor", [.var "X", .var "Y"], [("parent", [.var "X", .var "Y"])]⟩]

theorem parent_ok : ProgramOk InfState familyAr [family] parentRules := by
  refine ⟨family_ok.notReserved, ?_, family_ok.rowsOk, ?_⟩
  · intro p k h
    simp only [familyAr] at h
    split at h
    · rename_i e; subst e; exact .inl ⟨family, by simp, by decide⟩
    · split at h
      · rename_i e; subst e; exact .inr ⟨_, List.mem_cons_self, rfl⟩
      · simp at h
  · intro r hr
    exact family_ok.rulesOk r (by simp [parentRules] at hr; simp [ancestorRules, hr])

def parentKB : KnowledgeBase InfState familyAr [family] parentRules :=
  tableKB (s := { relations := [("learn_rule", .learnRule), ("ancestor", .handleRule)]
                  rules := [("ancestor", parentRules.map HornRule.toRule)] }) parent_ok (by decide +kernel)

example : True := by
  have h : parentKB.ask 6 [("ancestor", [.str "ann", .var "W"])] [] = .ok parentKB.world (.rows [[("W", .str "bob")]]) := by decide +kernel
  obtain ⟨w, h'⟩ := family_answers
  have := C65_more_knowledge parentKB familyKB (rowsIn_refl _) (by simp [parentRules, ancestorRules]) ancestor_heads
    family_query_ok family_query_ok plainB_nil h h'
  trivial

/-- The rules of `familyKB` in the other order, the first one twice. -/
def shuffledRules : List HornRule := [ancestorRules[1]'(by decide), ancestorRules[0]'(by decide), ancestorRules[1]'(by decide)]

theorem shuffled_mem (r : HornRule) : r ∈ ancestorRules ↔ r ∈ shuffledRules := by
  simp only [ancestorRules, shuffledRules, List.getElem_cons_zero, List.getElem_cons_succ, List.mem_cons, List.not_mem_nil, or_false]
  constructor
  · rintro (h | h)
    · exact .inr (.inl h)
    · exact .inl h
  · rintro (h | h | h)
    · exact .inr h
    · exact .inl h
    · exact .inr h

theorem shuffled_ok : ProgramOk InfState familyAr [family] shuffledRules := by
  refine ⟨family_ok.notReserved, ?_, family_ok.rowsOk, fun r hr => family_ok.rulesOk r ((shuffled_mem r).2 hr)⟩
  intro p k h
  exact (family_ok.defined p k h).imp id fun ⟨r, hr, e⟩ => ⟨r, (shuffled_mem r).1 hr, e⟩

def shuffledKB : KnowledgeBase InfState familyAr [family] shuffledRules :=
  tableKB (s := { relations := [("learn_rule", .learnRule), ("ancestor", .handleRule)]
                  rules := [("ancestor", shuffledRules.map HornRule.toRule)] }) shuffled_ok (by decide +kernel)

example : True := by
  obtain ⟨w, h⟩ := family_answers
  have h' : shuffledKB.ask 6 [("ancestor", [.str "ann", .var "W"])] [] = .ok shuffledKB.world
    (.rows [[("W", .str "dan")], [("W", .str "cas")], [("W", .str "bob")]]) := by decide +kernel
  have := C66_order_of_knowledge familyKB shuffledKB (rowsIn_refl _) (rowsIn_refl _) shuffled_mem ancestor_heads
    family_query_ok family_query_ok plainB_nil h h'
  trivial

end Ex

end Verif

import Verif.FirstOrderMain
import Verif.Props.Knowledge

/-!
# C71: queries with negation, quantifiers, numbers and alternatives

What the queries mean is in `Verif.FirstOrder`.
-/

namespace Verif

section
variable {W : Type} {ar : String → Option Nat} {tables : List (Dict (List (List Value)))} {rs : List HornRule}

/-- All modules but the core module (`Model.py:10-24`). -/
def KnowledgeBase.others (K : KnowledgeBase W ar tables rs) : List (Module W) := K.before ++ inferenceModule K.lens :: K.after

/-- Solving a query (`Solver.py:22-31`) with nesting bounded by `n`. -/
def KnowledgeBase.askForms (K : KnowledgeBase W ar tables rs) (n : Nat) (q : List Form) (b : Binding) : Res W SolOut :=
  (solverAt (modelOf K.others) n).solve (.list (formValues q)) b K.world

theorem argVars_queryVars (p : String) (args : List Value) : queryVars [(p, args)] = argVars args := by
  simp only [queryVars, argVars, List.flatMap_cons, List.flatMap_nil, List.append_nil]
  rfl

theorem KnowledgeBase.base (K : KnowledgeBase W ar tables rs) (hrr : HeadsBound rs)
    (hcore : ∀ p ∈ coreNames, NotDefined K.others K.world p) : Base K.others K.world ar (program tables rs) := by
  refine ⟨hcore, fun n p args b hp hargs hb w' out h => ?_⟩
  have hq : QueryOk ar [(p, args)] := by
    intro a ha
    simp only [List.mem_singleton] at ha
    subst ha
    exact ⟨hp, hargs⟩
  have hok : ProgramOk W ar (K.dbs ++ K.dbs') rs := K.split ▸ K.ok
  have hh := holds_inference K.lens K.world ar K.facts K.facts' rs hok K.inserted
  rw [← K.split] at hh
  have h' : (solverAt (modelOf (K.before ++ inferenceModule K.lens :: K.after)) (n + 1)).solve (toQuery [(p, args)]) b K.world = .ok w' out := h
  rcases solve_good (holds_wellFormed K.ok hh) (n + 1) hq hb with h1 | ⟨bs, h1, _⟩
  · rw [h1] at h'; simp at h'
  · rw [h1] at h'
    simp only [Res.ok.injEq] at h'
    obtain ⟨rfl, rfl⟩ := h'
    obtain ⟨s, d, c⟩ := K.exact hq hb h1
    refine ⟨rfl, bs, rfl, ?_, ?_, d⟩
    · intro b' hb'
      obtain ⟨a1, a2, a3, a4⟩ := s b' hb'
      rw [argVars_queryVars] at a3
      exact ⟨a1, a2, a3, fun σ _ hσ => a4 σ hσ (p, args) (by simp)⟩
    · intro σ hp hσ hS
      exact c hrr σ hp hσ (by intro a ha; simp only [List.mem_singleton] at ha; subst ha; exact hS)

/-- **C71** The answers to a query with negation, quantifiers, numbers and alternatives over facts and (possibly recursive) rules are exactly
the ways to satisfy it, each once: when the query returns, each answer extends the given binding with proper values for precisely the
variables that the query binds, and satisfies the query; and whatever satisfies the query is among the answers. The world is not changed. -/
theorem C71_first_order (K : KnowledgeBase W ar tables rs) (hrr : HeadsBound rs) (hcore : ∀ p ∈ coreNames, NotDefined K.others K.world p)
    {n : Nat} {q : List Form} {b : Binding} (hq : FormsOk ar q (fun x => b.has x = true)) (hb : PlainB b) {w' : W} {out : SolOut}
    (h : K.askForms n q b = .ok w' out) :
    w' = K.world ∧ ∃ bs, out = .rows bs ∧
      (∀ b' ∈ bs, (∀ x v, b'.get x = some v → Plain v) ∧ (∀ x v, b.get x = some v → b'.get x = some v) ∧
        (∀ x, b'.has x = true ↔ b.has x = true ∨ x ∈ formBinds q) ∧
        ∀ σ : Assignment, (∀ x, Plain (σ x)) → (∀ x v, b'.get x = some v → σ x = v) →
          SatAll (program tables rs) q (fun x => b.has x = true) σ) ∧
      (∀ σ : Assignment, (∀ x, Plain (σ x)) → (∀ x v, b.get x = some v → σ x = v) →
        SatAll (program tables rs) q (fun x => b.has x = true) σ → ∃ b' ∈ bs, ∀ x v, b'.get x = some v → σ x = v) ∧
      bs.Pairwise fun b1 b2 => ¬ ∀ x, b1.get x = b2.get x := by
  obtain ⟨h1, bs, h2, h3⟩ := forms_exact (K.base hrr hcore).toIn n q b hq (formsCalled_any q _) hb _ _ h
  exact ⟨h1, bs, h2, h3.sound, h3.complete, h3.noDup⟩

/-- **C71** (returning) If the calls of the rules go down from the ranks of the predicates (without recursion they do, `Descends.of_rank`; for recursion see
C92), then the query returns, with answers or with an exception, at every depth above that of the query. -/
theorem C71_returns (K : KnowledgeBase W ar tables rs) (hrr : HeadsBound rs) (hcore : ∀ p ∈ coreNames, NotDefined K.others K.world p)
    {rank : String → Nat} (hrank : Descends (program tables rs) rank)
    {n : Nat} {q : List Form} {b : Binding} (hq : FormsOk ar q (fun x => b.has x = true)) (hb : PlainB b) (hn : formsDepth rank q ≤ n) :
    (∃ bs, K.askForms n q b = .ok K.world (.rows bs)) ∨ ∃ w' e, K.askForms n q b = .err w' e := by
  obtain ⟨level, hdown, hle⟩ := hrank
  have hfin : AtomsReturn K.others K.world ar anyCall rank := by
    intro n _ p args b hp _ hargs hb hr
    have hok : ProgramOk W ar (K.dbs ++ K.dbs') rs := K.split ▸ K.ok
    have hh := holds_inference K.lens K.world ar K.facts K.facts' rs hok K.inserted
    rw [← K.split] at hh
    exact solve_level (holds_wellFormed K.ok hh) (holds_descend K.ok hh hdown) n (q := [(p, args)])
      (by intro a ha; simp only [List.mem_singleton] at ha; subst ha; exact ⟨hp, hargs⟩)
      (callsBelow_single fun vs => Nat.lt_succ_of_le (Nat.le_trans (hle p vs) hr)) hb
  have h := forms_fin (K.base hrr hcore).toIn hfin n q b hq (formsCalled_any q _) hb hn
  cases hr : K.askForms n q b with
  | oof => exact absurd hr h
  | err w' e => exact .inr ⟨w', e, rfl⟩
  | ok w' o =>
    obtain ⟨rfl, bs, rfl, _⟩ := C71_first_order K hrr hcore hq hb hr
    exact .inl ⟨bs, rfl⟩

end

namespace Ex

theorem family_core : ∀ p ∈ coreNames, NotDefined familyKB.others familyKB.world p := by
  intro p hp m hm
  have : ∀ p ∈ coreNames, (tableModule InfState family).relations familyKB.world p = none ∧
      (inferenceModule familyKB.lens).relations familyKB.world p = none := by
    intro p hp
    simp only [coreNames, List.mem_cons, List.not_mem_nil, or_false] at hp
    rcases hp with rfl | rfl | rfl | rfl | rfl | rfl | rfl | rfl | rfl | rfl | rfl | rfl | rfl <;> exact ⟨rfl, rfl⟩
  simp only [KnowledgeBase.others, familyKB, tableKB, List.mem_append, List.mem_cons, List.mem_map, List.not_mem_nil, or_false] at hm
  rcases hm with ⟨db, rfl, rfl⟩ | rfl | ⟨_, hf, _⟩
  · exact (this p hp).1
  · exact (this p hp).2
  · exact hf.elim

/-- Whose parents are all known to be parents of just one, who has no children, and how many ancestors do they have, if more than one? -/
def question : List Form :=
  [.atom "parent" [.var "X", .var "Y"], .neg [.atom "parent" [.var "Y", .var "Z"]], .exactly [.atom "parent" [.var "X", .var "Z"]] (.num 1),
   .count "N" [.atom "ancestor" [.var "A", .var "Y"]], .greater (.var "N") (.num 1), .either [[.equals (.var "Y") (.str "nobody")], [.equals (.var "Y") (.str "dan")]],
   .all "A" [.atom "ancestor" [.var "A", .var "Y"]] [.atom "parent" [.var "A", .var "B"]], .assign "M" (.var "N")]

theorem question_ok : FormsOk familyAr question (fun x => Dict.has ([] : Binding) x = true) := by
  simp [question, FormsOk, Form.Ok, AltsOk, familyAr, ArgsOk, Value.isVar, Given, Known.more, Form.binds, formBinds, altBinds, argVars, Dict.has, Dict.get,
    Plain, legal]

theorem question_answers : familyKB.askForms 7 question [] = .ok familyKB.world (.rows
    [[("X", .str "cas"), ("Y", .str "dan"), ("N", .num 3), ("A", .str "cas"), ("M", .num 3)],
     [("X", .str "cas"), ("Y", .str "dan"), ("N", .num 3), ("A", .str "ann"), ("M", .num 3)],
     [("X", .str "cas"), ("Y", .str "dan"), ("N", .num 3), ("A", .str "bob"), ("M", .num 3)]]) := by decide +kernel

/-- So the answers are exactly the ways to satisfy the question. -/
example : ∀ σ : Assignment, (∀ x, Plain (σ x)) → SatAll (program [family] ancestorRules) question (fun x => Dict.has ([] : Binding) x = true) σ →
    σ "Y" = .str "dan" ∧ σ "N" = .num 3 := by
  intro σ hp hs
  obtain ⟨_, bs, e, _, hc, _⟩ := C71_first_order familyKB ancestor_heads family_core question_ok (b := []) plainB_nil question_answers
  cases e
  obtain ⟨b', hb', h⟩ := hc σ hp (by simp [Dict.get]) hs
  simp only [List.mem_cons, List.not_mem_nil, or_false] at hb'
  rcases hb' with rfl | rfl | rfl <;> exact ⟨h "Y" _ rfl, h "N" _ rfl⟩

theorem parent_core : ∀ p ∈ coreNames, NotDefined parentKB.others parentKB.world p := by
  intro p hp m hm
  have : ∀ p ∈ coreNames, (tableModule InfState family).relations parentKB.world p = none ∧
      (inferenceModule parentKB.lens).relations parentKB.world p = none := by
    intro p hp
    simp only [coreNames, List.mem_cons, List.not_mem_nil, or_false] at hp
    rcases hp with rfl | rfl | rfl | rfl | rfl | rfl | rfl | rfl | rfl | rfl | rfl | rfl | rfl <;> exact ⟨rfl, rfl⟩
  simp only [KnowledgeBase.others, parentKB, tableKB, List.mem_append, List.mem_cons, List.mem_map, List.not_mem_nil, or_false] at hm
  rcases hm with ⟨db, rfl, rfl⟩ | rfl | ⟨_, hf, _⟩
  · exact (this p hp).1
  · exact (this p hp).2
  · exact hf.elim

/-- With only the rule `ancestor(X, Y) :- parent(X, Y)` the question returns at depth 3. -/
example : (∃ bs, parentKB.askForms 3 question [] = .ok parentKB.world (.rows bs)) ∨ ∃ w' e, parentKB.askForms 3 question [] = .err w' e :=
  C71_returns parentKB (fun r hr => ancestor_heads r (by simp [parentRules] at hr; simp [ancestorRules, hr])) parent_core (rank := fun p => if p = "ancestor" then 1 else 0)
    (.of_rank (by simp [parentRules])) question_ok plainB_nil (by decide)

end Ex

end Verif

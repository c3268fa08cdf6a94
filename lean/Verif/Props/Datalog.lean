import Verif.RuleBase
import Verif.Mono
import Verif.MonoModules

/-!
# C05, C06, C08, C09, C10, C11: queries over facts and rules

`Derivable (program dbs rs)` (see `Verif.Datalog`) is the least set of ground atoms containing the stored rows and closed under the
rules. The model consists of the core module, any number of modules that answer queries from stored rows (`FactModules`:
`tableModules_fact` for fixed tables, `memoryModule_fact` in `Verif.MemoryLemmas` for the memory modules) and an inference module;
the rules got into the inference module by any sequence of insertions.
-/

namespace Verif

variable {W : Type}

/-- The assignment given by a binding. -/
def asg (b : Binding) : Assignment := fun x => (b.get x).getD .none

theorem asg_agrees (b : Binding) : Agrees (asg b) b := fun x v h => by simp [asg, h]

/-! ## C08 -/

/-- **C08** Soundness: whenever a query returns, the world is unchanged and every answer extends the incoming binding, binds the
variables of the query, and makes all atoms of the query consequences of the facts and the rules. -/
theorem C08_inference_sound (l : Lens W InfState) {w w' : W} {ar : String → Option Nat} {dbs dbs' : List (Dict (List (List Value)))}
    {rs : List HornRule}
    {ms ms' : List (Module W)} (hf : FactModules ar w ms dbs) (hf' : FactModules ar w ms' dbs')
    (hok : ProgramOk W ar (dbs ++ dbs') rs)
    (hins : insertAll (rs.map HornRule.toRule) InfState.init = .ok (l.get w))
    {q : Query} (hq : QueryOk ar q) {b : Binding} (hb : PlainB b) {n : Nat} {out : SolOut}
    (h : (solverAt (modelOf (ms ++ inferenceModule l :: ms')) n).solve (toQuery q) b w
      = .ok w' out) :
    w' = w ∧ ∃ bs, out = .rows bs ∧ ∀ b' ∈ bs, Extends b b' ∧ (∀ x ∈ queryVars q, b'.has x = true) ∧
      ∀ a ∈ q, Derivable (program (dbs ++ dbs') rs) a.1 (a.2.map (inst (asg b'))) := by
  have hh := holds_inference l w ar hf hf' rs hok hins
  rcases solve_good (holds_wellFormed hok hh) n hq hb with h1 | ⟨bs, h1, h2, _⟩
  · rw [h] at h1; simp at h1
  · rw [h] at h1
    simp only [Res.ok.injEq] at h1
    refine ⟨h1.1, bs, h1.2, fun b' hb' => ?_⟩
    obtain ⟨_, h3, h4, h5⟩ := h2 b' hb'
    exact ⟨h3, fun x hx => (h4 x).2 (.inr hx), fun a ha =>
      (holds_derivable hok hh (hq a ha).1).1 (h5 _ (asg_agrees b') a ha)⟩

/-- **C08/C10** A query over well-formed facts and rules never raises an exception, recursive rules included. -/
theorem C10_no_exception (l : Lens W InfState) {w : W} {ar : String → Option Nat} {dbs dbs' : List (Dict (List (List Value)))}
    {rs : List HornRule}
    {ms ms' : List (Module W)} (hf : FactModules ar w ms dbs) (hf' : FactModules ar w ms' dbs')
    (hok : ProgramOk W ar (dbs ++ dbs') rs)
    (hins : insertAll (rs.map HornRule.toRule) InfState.init = .ok (l.get w))
    {q : Query} (hq : QueryOk ar q) {b : Binding} (hb : PlainB b) (n : Nat) (w' : W) (e : Err) :
    (solverAt (modelOf (ms ++ inferenceModule l :: ms')) n).solve (toQuery q) b w
      ≠ .err w' e := by
  have hh := holds_inference l w ar hf hf' rs hok hins
  rcases solve_good (holds_wellFormed hok hh) n hq hb with h1 | ⟨bs, h1, _⟩ <;> rw [h1] <;> simp

/-! ## C09 -/

/-- Every variable of a rule head occurs in the rule's body. -/
def HeadsBound (rs : List HornRule) : Prop := ∀ r ∈ rs, ∀ x, Value.var x ∈ r.args → x ∈ queryVars r.body

/-- **C09** Completeness: whenever a query returns, every assignment of the variables that agrees with the incoming binding and
makes all atoms of the query consequences of the facts and the rules is among the answers. -/
theorem C09_inference_complete (l : Lens W InfState) {w w' : W} {ar : String → Option Nat}
    {dbs dbs' : List (Dict (List (List Value)))} {rs : List HornRule}
    {ms ms' : List (Module W)} (hf : FactModules ar w ms dbs) (hf' : FactModules ar w ms' dbs')
    (hok : ProgramOk W ar (dbs ++ dbs') rs)
    (hrr : HeadsBound rs) (hins : insertAll (rs.map HornRule.toRule) InfState.init = .ok (l.get w))
    {q : Query} (hq : QueryOk ar q) {b : Binding} (hb : PlainB b) {n : Nat} {out : SolOut}
    (h : (solverAt (modelOf (ms ++ inferenceModule l :: ms')) n).solve (toQuery q) b w
      = .ok w' out) :
    ∃ bs, out = .rows bs ∧ ∀ σ : Assignment, (∀ x, Plain (σ x)) → Agrees σ b →
      (∀ a ∈ q, Derivable (program (dbs ++ dbs') rs) a.1 (a.2.map (inst σ))) →
      ∃ b' ∈ bs, Extends b b' ∧ ∀ x ∈ queryVars q, b'.get x = some (σ x) := by
  have hh := holds_inference l w ar hf hf' rs hok hins
  rcases solve_good (holds_wellFormed hok hh) n hq hb with h1 | ⟨bs, h1, h2, _, h3⟩
  · rw [h] at h1; simp at h1
  · rw [h] at h1
    simp only [Res.ok.injEq] at h1
    refine ⟨bs, h1.2, fun σ hσp hσ hd => ?_⟩
    obtain ⟨b', hb', hag⟩ := h3 (fun p hargs body hr x hx => hrr _ (holds_rules hh hr) x hx) σ hσp hσ
      (fun a ha => (holds_derivable hok hh (hq a ha).1).2 (hd a ha))
    obtain ⟨_, h4, h5, _⟩ := h2 b' hb'
    refine ⟨b', hb', h4, fun x hx => ?_⟩
    obtain ⟨v, hv⟩ := (Dict.has_iff _ _).1 ((h5 x).2 (.inr hx))
    rw [hv, hag x v hv]

/-- **C09** No answer is returned twice. -/
theorem C09_no_duplicates (l : Lens W InfState) {w w' : W} {ar : String → Option Nat}
    {dbs dbs' : List (Dict (List (List Value)))} {rs : List HornRule}
    {ms ms' : List (Module W)} (hf : FactModules ar w ms dbs) (hf' : FactModules ar w ms' dbs')
    (hok : ProgramOk W ar (dbs ++ dbs') rs)
    (hins : insertAll (rs.map HornRule.toRule) InfState.init = .ok (l.get w))
    {q : Query} (hq : QueryOk ar q) {b : Binding} (hb : PlainB b) {n : Nat} {bs : List Binding}
    (h : (solverAt (modelOf (ms ++ inferenceModule l :: ms')) n).solve (toQuery q) b w
      = .ok w' (.rows bs)) :
    bs.Pairwise fun b1 b2 => ∃ x, b1.get x ≠ b2.get x := by
  have hh := holds_inference l w ar hf hf' rs hok hins
  rcases solve_good (holds_wellFormed hok hh) n hq hb with h1 | ⟨bs', h1, _, h3, _⟩
  · rw [h] at h1; simp at h1
  · rw [h] at h1
    simp only [Res.ok.injEq, SolOut.rows.injEq] at h1
    rw [h1.2]
    exact h3.imp fun hn => Classical.not_forall.1 hn

/-! ## C10 -/

/-- **C10** If the predicates can be ranked such that each rule only uses predicates below its own, then a query returns at every
depth above the ranks of its predicates. -/
theorem C10_nonrecursive_terminates (l : Lens W InfState) {w : W} {ar : String → Option Nat}
    {dbs dbs' : List (Dict (List (List Value)))} {rs : List HornRule}
    {ms ms' : List (Module W)} (hf : FactModules ar w ms dbs) (hf' : FactModules ar w ms' dbs')
    (hok : ProgramOk W ar (dbs ++ dbs') rs)
    (hins : insertAll (rs.map HornRule.toRule) InfState.init = .ok (l.get w))
    {rank : String → Nat} (hrank : ∀ r ∈ rs, ∀ a ∈ r.body, rank a.1 < rank r.pred)
    {q : Query} (hq : QueryOk ar q) {b : Binding} (hb : PlainB b) {n : Nat} (hn : ∀ a ∈ q, rank a.1 ≤ n) :
    ∃ bs, (solverAt (modelOf (ms ++ inferenceModule l :: ms')) (n + 1)).solve
      (toQuery q) b w = .ok w (.rows bs) := by
  have hh := holds_inference l w ar hf hf' rs hok hins
  have hwf := holds_wellFormed hok hh
  have hne := solve_fin hwf (rank := rank) (fun p hargs body hr a ha => hrank _ (holds_rules hh hr) a ha) n hq
    (fun a ha => Nat.lt_succ_of_le (hn a ha)) hb
  obtain ⟨bs, h, _⟩ := (solve_good hwf (n + 1) hq hb).ok_of_ne hne
  exact ⟨bs, h⟩

/-! ## C92 -/

/-- **C92** Recursive rules: if the calls of the rules go down in some level, then a query whose calls are at most of level `n` returns at depth `n + 1`. -/
theorem C92_recursive_returns (l : Lens W InfState) {w : W} {ar : String → Option Nat}
    {dbs dbs' : List (Dict (List (List Value)))} {rs : List HornRule}
    {ms ms' : List (Module W)} (hf : FactModules ar w ms dbs) (hf' : FactModules ar w ms' dbs')
    (hok : ProgramOk W ar (dbs ++ dbs') rs)
    (hins : insertAll (rs.map HornRule.toRule) InfState.init = .ok (l.get w))
    {level : String → List Value → Nat} (hdown : CallsDescend (program (dbs ++ dbs') rs) level)
    {q : Query} (hq : QueryOk ar q) {b : Binding} (hb : PlainB b) {n : Nat} (hn : CallsBelow (program (dbs ++ dbs') rs) level q b (n + 1)) :
    ∃ bs, (solverAt (modelOf (ms ++ inferenceModule l :: ms')) (n + 1)).solve
      (toQuery q) b w = .ok w (.rows bs) := by
  have hh := holds_inference l w ar hf hf' rs hok hins
  have hwf := holds_wellFormed hok hh
  have hne := solve_level hwf (holds_descend hok hh hdown) n hq (holds_below hok hh hq hn) hb
  obtain ⟨bs, h, _⟩ := (solve_good hwf (n + 1) hq hb).ok_of_ne hne
  exact ⟨bs, h⟩

/-! ## C05, C06 -/

/-- All atoms are stored rows under the assignment. -/
def AllStored (dbs : List (Dict (List (List Value)))) (q : Query) (σ : Assignment) : Prop :=
  ∀ a ∈ q, ∃ db ∈ dbs, ∃ rows, db.get a.1 = some rows ∧ a.2.map (inst σ) ∈ rows

theorem derivable_fact {dbs : List (Dict (List (List Value)))} {p : String} {row : List Value} :
    Derivable (program dbs []) p row ↔ ∃ db ∈ dbs, ∃ rows, db.get p = some rows ∧ row ∈ rows := by
  constructor
  · intro h
    cases h with
    | fact h => exact h
    | rule σ h _ _ => simp [program] at h
  · intro h; exact .fact h

theorem holds_exact {mods : List (Module W)} {w : W} {ar : String → Option Nat} {dbs : List (Dict (List (List Value)))}
    (hok : ProgramOk W ar dbs []) (hh : Holds mods (fun _ => InfState.init) w ar dbs [])
    {q : Query} (hq : QueryOk ar q) {b : Binding} (hb : PlainB b) (n : Nat) :
    ∃ bs, (solverAt mods (n + 1)).solve (toQuery q) b w = .ok w (.rows bs) ∧
      (∀ b' ∈ bs, Extends b b' ∧ (∀ x, b'.has x = true ↔ b.has x = true ∨ x ∈ queryVars q) ∧ AllStored dbs q (asg b')) ∧
      (∀ σ : Assignment, (∀ x, Plain (σ x)) → Agrees σ b → AllStored dbs q σ →
        ∃ b' ∈ bs, Extends b b' ∧ ∀ x ∈ queryVars q, b'.get x = some (σ x)) ∧
      bs.Pairwise fun b1 b2 => ∃ x, b1.get x ≠ b2.get x := by
  have hwf := holds_wellFormed hok hh
  have hne := solve_fin hwf (rank := fun _ => 0) (fun p hargs body hr a ha => by
    have := holds_rules hh hr
    simp [program] at this) n hq (fun a _ => Nat.succ_pos n) hb
  obtain ⟨bs, h, h2, h6, h3⟩ := (solve_good hwf (n + 1) hq hb).ok_of_ne hne
  refine ⟨bs, h, ?_, ?_, h6.imp fun hn => Classical.not_forall.1 hn⟩
  · intro b' hb'
    obtain ⟨_, h3, h4, h5⟩ := h2 b' hb'
    refine ⟨h3, h4, fun a ha => ?_⟩
    exact derivable_fact.1 ((holds_derivable hok hh (hq a ha).1).1 (h5 _ (asg_agrees b') a ha))
  · intro σ hσp hσ hd
    obtain ⟨b', hb', hag⟩ := h3 (fun p hargs body hr x hx => by
      have := holds_rules hh hr
      simp [program] at this) σ hσp hσ
      (fun a ha => (holds_derivable hok hh (hq a ha).1).2 (derivable_fact.2 (hd a ha)))
    obtain ⟨_, h4, h5, _⟩ := h2 b' hb'
    refine ⟨b', hb', h4, fun x hx => ?_⟩
    obtain ⟨v, hv⟩ := (Dict.has_iff _ _).1 ((h5 x).2 (.inr hx))
    rw [hv, hag x v hv]

/-- **C05** A query over fact tables returns, at every depth above 0, exactly the assignments under which every atom is a stored
row, each once; no exception, no change of the world. -/
theorem C05_tables_exact {w : W} {ar : String → Option Nat} {dbs : List (Dict (List (List Value)))}
    {ms : List (Module W)} (hf : FactModules ar w ms dbs) (hok : ProgramOk W ar dbs []) {q : Query} (hq : QueryOk ar q)
    {b : Binding} (hb : PlainB b) (n : Nat) :
    ∃ bs, (solverAt (modelOf ms) (n + 1)).solve (toQuery q) b w = .ok w (.rows bs) ∧
      (∀ b' ∈ bs, Extends b b' ∧ (∀ x, b'.has x = true ↔ b.has x = true ∨ x ∈ queryVars q) ∧ AllStored dbs q (asg b')) ∧
      (∀ σ : Assignment, (∀ x, Plain (σ x)) → Agrees σ b → AllStored dbs q σ →
        ∃ b' ∈ bs, Extends b b' ∧ ∀ x ∈ queryVars q, b'.get x = some (σ x)) ∧
      bs.Pairwise fun b1 b2 => ∃ x, b1.get x ≠ b2.get x :=
  holds_exact hok (holds_tables w ar dbs hok hf) hq hb n

theorem answers_sub {P : Program} {q q' : Query} (hperm : q.Perm q') {b : Binding} {bs bs' : List Binding}
    (hs : SoundB P q b bs) (hs' : SoundB P q' b bs') (hc' : CompleteB P q' b bs') :
    ∀ b1 ∈ bs, ∃ b2 ∈ bs', ∀ x, b1.get x = b2.get x := by
  have hvars : ∀ x, x ∈ queryVars q ↔ x ∈ queryVars q' := by
    intro x; simp only [mem_queryVars, hperm.mem_iff]
  intro b1 hb1
  obtain ⟨hp1, he1, hd1, hder1⟩ := hs b1 hb1
  let σ : Assignment := fun x => (b1.get x).getD (.num 0)
  have hσ : Agrees σ b1 := fun x v hx => by simp [σ, hx]
  have hσp : ∀ x, Plain (σ x) := by
    intro x
    simp only [σ]
    cases hx : b1.get x with
    | none => exact ⟨by simp, rfl, rfl⟩
    | some v => exact hp1 x v hx
  obtain ⟨b2, hb2, hag⟩ := hc' σ hσp (hσ.mono he1) (fun a ha => hder1 σ hσ a (hperm.mem_iff.2 ha))
  obtain ⟨_, _, hd2, _⟩ := hs' b2 hb2
  refine ⟨b2, hb2, fun x => ?_⟩
  have hiff : b1.has x = true ↔ b2.has x = true := by rw [hd1, hd2, hvars]
  cases h1 : b1.get x with
  | none =>
    cases h2 : b2.get x with
    | none => rfl
    | some v => exact absurd (hiff.2 ((Dict.has_iff _ _).2 ⟨v, h2⟩)) (by simp [Dict.has, h1])
  | some v =>
    obtain ⟨u, hu⟩ := (Dict.has_iff _ _).1 (hiff.1 ((Dict.has_iff _ _).2 ⟨v, h1⟩))
    rw [hu, ← hag x u hu, hσ x v h1]

theorem noDup_length_le {bs bs' : List Binding} (hnd : NoDup bs) (h : ∀ b1 ∈ bs, ∃ b2 ∈ bs', SameDict b1 b2) :
    bs.length ≤ bs'.length := by
  induction bs generalizing bs' with
  | nil => simp
  | cons b bs ih =>
    obtain ⟨b2, hb2, hs⟩ := h b (by simp)
    obtain ⟨l1, l2, rfl⟩ := List.append_of_mem hb2
    have hnd' := List.pairwise_cons.1 hnd
    have := ih (bs' := l1 ++ l2) hnd'.2 (fun b1 hb1 => by
      obtain ⟨b3, hb3, hs3⟩ := h b1 (List.mem_cons_of_mem _ hb1)
      refine ⟨b3, ?_, hs3⟩
      simp only [List.mem_append, List.mem_cons] at hb3 ⊢
      rcases hb3 with h | rfl | h
      · exact .inl h
      · exact absurd (hs.trans hs3.symm) (hnd'.1 b1 hb1)
      · exact .inr h)
    simp only [List.length_append, List.length_cons] at this ⊢
    omega

/-- **C06** Over facts and rules: if a query and the same query with its atoms in another order both return, they have the same
answers, each as often. -/
theorem C06_order_irrelevant_rules (l : Lens W InfState) {w w1 w2 : W} {ar : String → Option Nat}
    {dbs dbs' : List (Dict (List (List Value)))} {rs : List HornRule}
    {ms ms' : List (Module W)} (hf : FactModules ar w ms dbs) (hf' : FactModules ar w ms' dbs')
    (hok : ProgramOk W ar (dbs ++ dbs') rs)
    (hrr : HeadsBound rs) (hins : insertAll (rs.map HornRule.toRule) InfState.init = .ok (l.get w))
    {q q' : Query} (hq : QueryOk ar q) (hperm : q.Perm q') {b : Binding} (hb : PlainB b) {n n' : Nat} {bs bs' : List Binding}
    (h : (solverAt (modelOf (ms ++ inferenceModule l :: ms')) n).solve (toQuery q) b w
      = .ok w1 (.rows bs))
    (h' : (solverAt (modelOf (ms ++ inferenceModule l :: ms')) n').solve (toQuery q') b w
      = .ok w2 (.rows bs')) :
    (∀ b1 ∈ bs, ∃ b2 ∈ bs', ∀ x, b1.get x = b2.get x) ∧ (∀ b2 ∈ bs', ∃ b1 ∈ bs, ∀ x, b2.get x = b1.get x) ∧
      bs.length = bs'.length := by
  have hh := holds_inference l w ar hf hf' rs hok hins
  have hwf := holds_wellFormed hok hh
  have hq' : QueryOk ar q' := fun a ha => hq a (hperm.mem_iff.2 ha)
  have hrr' : RangeRestricted (programOf _ l.get w) := fun p hargs body hr x hx => hrr _ (holds_rules hh hr) x hx
  rcases solve_good hwf n hq hb with e | ⟨c, e, hs, hn, hc⟩
  · rw [h] at e; simp at e
  rw [h] at e
  simp only [Res.ok.injEq, SolOut.rows.injEq] at e
  obtain ⟨_, rfl⟩ := e
  rcases solve_good hwf n' hq' hb with e | ⟨c', e, hs', hn', hc'⟩
  · rw [h'] at e; simp at e
  rw [h'] at e
  simp only [Res.ok.injEq, SolOut.rows.injEq] at e
  obtain ⟨_, rfl⟩ := e
  have h1 := answers_sub hperm hs hs' (hc' hrr')
  have h2 := answers_sub hperm.symm hs' hs (hc hrr')
  exact ⟨h1, h2, Nat.le_antisymm (noDup_length_le hn h1) (noDup_length_le hn' h2)⟩

/-- **C06** Over fact tables, reordering the atoms of a query does not change its answers, nor their number. -/
theorem C06_order_irrelevant {w : W} {ar : String → Option Nat} {dbs : List (Dict (List (List Value)))}
    {ms : List (Module W)} (hf : FactModules ar w ms dbs) (hok : ProgramOk W ar dbs []) {q q' : Query} (hq : QueryOk ar q) (hperm : q.Perm q') {b : Binding} (hb : PlainB b) (n : Nat) :
    ∃ bs bs', (solverAt (modelOf ms) (n + 1)).solve (toQuery q) b w = .ok w (.rows bs) ∧
      (solverAt (modelOf ms) (n + 1)).solve (toQuery q') b w = .ok w (.rows bs') ∧
      (∀ b1 ∈ bs, ∃ b2 ∈ bs', ∀ x, b1.get x = b2.get x) ∧ (∀ b2 ∈ bs', ∃ b1 ∈ bs, ∀ x, b2.get x = b1.get x) ∧
      bs.length = bs'.length := by
  have hh := holds_tables w ar dbs hok hf
  have hwf := holds_wellFormed hok hh
  have hq' : QueryOk ar q' := fun a ha => hq a (hperm.mem_iff.2 ha)
  have hno : ∀ p hargs body, ¬ (programOf (modelOf ms) (fun _ => InfState.init) w).rules p hargs body := by
    intro p hargs body hr
    have := holds_rules hh hr
    simp [program] at this
  have hfin : ∀ {q : Query}, QueryOk ar q → (solverAt (modelOf ms) (n + 1)).solve (toQuery q) b w ≠ .oof :=
    fun hq => solve_fin hwf (rank := fun _ => 0) (fun p hargs body hr => absurd hr (hno p hargs body)) n hq
      (fun a _ => Nat.succ_pos n) hb
  have hrr' : RangeRestricted (programOf (modelOf ms) (fun _ => InfState.init) w) :=
    fun p hargs body hr => absurd hr (hno p hargs body)
  obtain ⟨bs, e1, hs, hn, hc⟩ := (solve_good hwf (n + 1) hq hb).ok_of_ne (hfin hq)
  obtain ⟨bs', e2, hs', hn', hc'⟩ := (solve_good hwf (n + 1) hq' hb).ok_of_ne (hfin hq')
  have h1 := answers_sub hperm hs hs' (hc' hrr')
  have h2 := answers_sub hperm.symm hs' hs (hc hrr')
  exact ⟨bs, bs', e1, e2, h1, h2, Nat.le_antisymm (noDup_length_le hn h1) (noDup_length_le hn' h2)⟩

/-! ## C11 -/

/-- **C11** After any history of successful insertions, the rules kept for a predicate are exactly the inserted ones with
that predicate, in order; the predicate can be queried as soon as there is one. -/
theorem C11_rules_persist {rs : List Rule} {s : InfState} (h : insertAll rs InfState.init = .ok s) (p : String) :
    (s.rules.get p).getD [] = rs.filter (fun r => decide (r.pred = some p)) ∧
    ((∃ r ∈ rs, r.pred = some p) → s.relations.get p = some .handleRule) := by
  obtain ⟨h1, _, h3⟩ := insertAll_rules h p
  refine ⟨by rw [h1]; simp [InfState.init], fun he => ?_⟩
  rw [h3, if_pos he]

/-- A word: not empty, and of letters, digits and `_` (specification; every character outside ASCII counts as a letter). -/
def WordName (p : String) : Prop := p.toList ≠ [] ∧ ∀ c ∈ p.toList, c.isAlphanum = true ∨ c = '_' ∨ 128 ≤ c.toNat

theorem isWord_iff (p : String) : isWord p = true ↔ WordName p := by
  simp only [isWord, WordName, ne_eq, Bool.and_eq_true, decide_eq_true_eq, List.all_eq_true, Bool.or_eq_true, beq_iff_eq, or_assoc]

/-- **C11** Insertion succeeds exactly if the head starts with a word. -/
theorem C11_insert_succeeds (r : Rule) (s : InfState) : (∃ s', insertRule r s = .ok s') ↔ ∃ p args, r.head = .str p :: args ∧ WordName p := by
  obtain ⟨head, body⟩ := r
  constructor
  · rintro ⟨s', h⟩
    obtain ⟨p, hp, hw, _⟩ := insertRule_ok h
    cases head with
    | nil => simp [Rule.pred] at hp
    | cons v args =>
      cases v <;> simp [Rule.pred] at hp
      subst hp
      exact ⟨_, args, rfl, (isWord_iff _).1 hw⟩
  · rintro ⟨p, args, rfl, hw⟩
    simp [insertRule, (isWord_iff _).2 hw]

/-- **C11** Asking `learn_rule` stores the rule with the bound variables filled in, behind all rules learned before, and keeps the
rules of all other predicates. -/
theorem C11_learn_rule (l : Lens W InfState) {mods : List (Module W)} {w : W}
    (hrel : findRelations mods w "learn_rule" = [{ predicate := "learn_rule", query := learnRule l }])
    {p : String} (hw : WordName p) (args body : List Value) (b : Binding) (n : Nat) :
    ∃ w', (solverAt mods (n + 1)).solve (.list [.tuple [.str "learn_rule", .tuple (.str p :: args), .list body]]) b w
        = .ok w' (.rows [b]) ∧
      (∀ q, ((l.get w').rules.get q).getD [] = ((l.get w).rules.get q).getD [] ++
        (if q = p then [{ head := .str p :: bindVarsList b args, body := .list (bindVarsList b body) }] else [])) ∧
      (l.get w').relations.get p = some .handleRule := by
  obtain ⟨s', hs'⟩ := (C11_insert_succeeds { head := .str p :: bindVarsList b args, body := .list (bindVarsList b body) } (l.get w)).2
    ⟨p, _, rfl, hw⟩
  refine ⟨l.put s' w, ?_, ?_, ?_⟩
  · show solveSingle.go (solverAt mods n) mods b "learn_rule" _ w = _
    have hq : learnRule l [.tuple (.str p :: args), .list body]
        ⟨"learn_rule", [], [.tuple (.str p :: args), .list body], b, solverAt mods n⟩ w
        = .ok (l.put s' w) (.rows [[.none, .none]]) := by
      simp only [learnRule]
      rw [M.bind_run]
      simp only [M.gets_run, bindVarsList, bindVars]
      rw [M.bind_run, hs']
      rfl
    simp only [solveSingle.go, findRelationValues]
    rw [if_neg (by decide), M.bind_run, M.bind_run]
    simp only [M.gets_run, hrel, queryRelations]
    have hdb : dbValues [.tuple (.str p :: args), .list body] b = [.tuple (.str p :: args), .list body] := rfl
    rw [hdb, M.bind_ok hq]
    simp only [M.pure_run, List.map_nil, List.nil_append, dedupRows, List.contains_nil, Bool.false_eq_true, if_false, resultsOf]
    simp [createResults, extendRow, Except.map, M.lift, M.pure]
  · intro q
    rw [l.get_put]
    obtain ⟨p', h1, _, _, h4⟩ := insertRule_ok hs'
    have : p' = p := by simpa [Rule.pred] using h1.symm
    subst this
    rw [h4, Dict.get_set]
    by_cases e : q = p'
    · subst e; simp
    · simp [e, Ne.symm e]
  · rw [l.get_put]
    obtain ⟨p', h1, _, h3, _⟩ := insertRule_ok hs'
    have : p' = p := by simpa [Rule.pred] using h1.symm
    subst this
    rw [h3, Dict.get_set]; simp

/-! ## A non-trivial program, and two witnesses of what the conditions exclude -/

namespace Ex

/-- `parent` facts. -/
def family : Dict (List (List Value)) :=
  [("parent", [[.str "ann", .str "bob"], [.str "bob", .str "cas"], [.str "cas", .str "dan"]])]

/-- `ancestor(X, Y) :- parent(X, Y).  ancestor(X, Z) :- parent(X, Y), ancestor(Y, Z).` -/
def ancestorRules : List HornRule :=
  [⟨"ancestor", [.var "X", .var "Y"], [("parent", [.var "X", .var "Y"])]⟩,
   ⟨"ancestor", [.var "X", .var "Z"], [("parent", [.var "X", .var "Y"]), ("ancestor", [.var "Y", .var "Z"])]⟩]

/-- The arities. -/
def familyAr : String → Option Nat := fun p => if p = "parent" then some 2 else if p = "ancestor" then some 2 else none

theorem family_ok : ProgramOk InfState familyAr [family] ancestorRules := by
  refine ⟨⟨by decide, by decide, ?_⟩, ?_, ?_, ?_⟩
  · intro p f h
    have hne : p ≠ "parent" ∧ p ≠ "ancestor" := by
      constructor <;> rintro rfl <;> simp [coreTable, Dict.get] at h
    simp [familyAr, hne.1, hne.2]
  · intro p k h
    simp only [familyAr] at h
    split at h
    · rename_i e; subst e; exact .inl ⟨family, by simp, by decide⟩
    · split at h
      · rename_i e; subst e; exact .inr ⟨_, List.mem_cons_self, rfl⟩
      · simp at h
  · intro p k h db hdb rows hrows row hrow
    simp only [List.mem_singleton] at hdb
    subst hdb
    have hp : p = "parent" := by
      by_cases e : "parent" = p
      · exact e.symm
      · simp [family, Dict.get, e] at hrows
    subst hp
    have hk : k = 2 := by simpa [familyAr] using h.symm
    subst hk
    have : rows = [[.str "ann", .str "bob"], [.str "bob", .str "cas"], [.str "cas", .str "dan"]] := by
      simpa [family, Dict.get] using hrows.symm
    subst this
    simp only [List.mem_cons, List.not_mem_nil, or_false] at hrow
    rcases hrow with rfl | rfl | rfl <;> simp [Plain, Value.isVar, legal]
  · intro r hr
    simp only [ancestorRules, List.mem_cons, List.not_mem_nil, or_false] at hr
    rcases hr with rfl | rfl
    · refine ⟨rfl, ?_, ?_⟩
      · simp [ArgsOk, Value.isVar]
      · simp [QueryOk, ArgsOk, Value.isVar, familyAr]
    · refine ⟨rfl, ?_, ?_⟩
      · simp [ArgsOk, Value.isVar]
      · simp [QueryOk, ArgsOk, Value.isVar, familyAr]

theorem ancestor_heads : HeadsBound ancestorRules := by
  intro r hr x hx
  simp only [ancestorRules, List.mem_cons, List.not_mem_nil, or_false] at hr
  rcases hr with rfl | rfl <;> simp [queryVars] at hx ⊢ <;> grind

/-- The state after inserting the rules. -/
def familyState : InfState :=
  { relations := [("learn_rule", .learnRule), ("ancestor", .handleRule)]
    rules := [("ancestor", ancestorRules.map HornRule.toRule)] }

theorem family_inserted : insertAll (ancestorRules.map HornRule.toRule) InfState.init = .ok familyState := by
  decide +kernel

/-- The query `ancestor('ann', W)` returns, so soundness and completeness say something about it. -/
theorem family_query : (solverAt (modelOf ([family].map (tableModule InfState) ++
      inferenceModule (Lens.id InfState) :: [].map (tableModule InfState))) 6).solve
    (toQuery [("ancestor", [.str "ann", .var "W"])]) [] familyState =
    .ok familyState (.rows [[("W", .str "bob")], [("W", .str "cas")], [("W", .str "dan")]]) := by
  decide +kernel

theorem family_query_ok : QueryOk familyAr [("ancestor", [.str "ann", .var "W"])] := by
  simp [QueryOk, ArgsOk, Value.isVar, familyAr, Plain, legal]

/-- The hypotheses of C08 and C09 are met by it. -/
example := C08_inference_sound (Lens.id InfState) (dbs := [family]) (dbs' := []) (tableModules_fact _ _ _) (tableModules_fact _ _ _) family_ok family_inserted family_query_ok
  (b := []) (by intro x v h; simp at h) family_query
example := C09_inference_complete (Lens.id InfState) (dbs := [family]) (dbs' := []) (tableModules_fact _ _ _) (tableModules_fact _ _ _) family_ok ancestor_heads family_inserted
  family_query_ok (b := []) (by intro x v h; simp at h) family_query
example := C06_order_irrelevant_rules (Lens.id InfState) (dbs := [family]) (dbs' := []) (tableModules_fact _ _ _) (tableModules_fact _ _ _) family_ok ancestor_heads family_inserted
  family_query_ok (q' := [("ancestor", [.str "ann", .var "W"])]) (List.Perm.refl _) (b := [])
  (by intro x v h; simp at h) family_query family_query

/-- Tables alone satisfy the conditions of C05 and C06. -/
theorem tables_ok : ProgramOk Unit (fun p => if p = "parent" then some 2 else none) [family] [] := by
  refine ⟨⟨by decide, by decide, ?_⟩, ?_, ?_, by simp⟩
  · intro p f h
    have hne : p ≠ "parent" := by
      rintro rfl; simp [coreTable, Dict.get] at h
    simp [hne]
  · intro p k h
    split at h
    · rename_i e; subst e; exact .inl ⟨family, by simp, by decide⟩
    · simp at h
  · intro p k h db hdb rows hrows
    split at h
    · rename_i e
      subst e
      simp only [Option.some.injEq] at h
      subst h
      exact family_ok.rowsOk "parent" 2 rfl db hdb rows hrows
    · simp at h

example := C05_tables_exact (w := ()) (tableModules_fact _ _ _) tables_ok (q := [("parent", [.var "X", .var "Y"]), ("parent", [.var "Y", .var "Z"])])
  (by simp [QueryOk, ArgsOk, Value.isVar]) (b := []) (by intro x v h; simp at h) 0
example : (solverAt (modelOf ([family].map (tableModule Unit))) 1).solve
    (toQuery [("parent", [.var "X", .var "Y"]), ("parent", [.var "Y", .var "Z"])]) [] () =
    .ok () (.rows [[("X", .str "ann"), ("Y", .str "bob"), ("Z", .str "cas")],
      [("X", .str "bob"), ("Y", .str "cas"), ("Z", .str "dan")]]) := by decide +kernel

/-- A rule base in which each predicate only uses lower ones. -/
def grandRules : List HornRule :=
  [⟨"ancestor", [.var "X", .var "Z"], [("parent", [.var "X", .var "Y"]), ("parent", [.var "Y", .var "Z"])]⟩]

example : ∀ r ∈ grandRules, ∀ a ∈ r.body,
    (fun p => if p = "ancestor" then 1 else 0 : String → Nat) a.1 < (fun p => if p = "ancestor" then 1 else 0 : String → Nat) r.pred := by
  simp [grandRules]; grind

example : WordName "grand_parent" ∧ ¬ WordName "grand parent" ∧ ¬ WordName "" := by
  simp only [← isWord_iff]; decide +kernel

example : findRelations (modelOf [inferenceModule (Lens.id InfState)]) InfState.init "learn_rule" =
    [{ predicate := "learn_rule", query := learnRule (Lens.id InfState) }] := rfl

end Ex

/-- The rule `p(X) :- p(X).` -/
def Ex.loopState : InfState :=
  { relations := [("learn_rule", .learnRule), ("p", .handleRule)],
    rules := [("p", [{ head := [.str "p", .var "X"], body := toQuery [("p", [.var "X"])] }])] }

/-- **C10** (limit) A rule that calls itself on the same arguments makes the query run forever: with `p(X) :- p(X).` the query
`p(X)` returns at no depth. -/
theorem C10_recursion_may_not_return (n : Nat) :
    (solverAt (modelOf [inferenceModule (Lens.id InfState)]) n).solve (toQuery [("p", [.var "X"])]) [("X", .num 1)] Ex.loopState
      = .oof := by
  induction n with
  | zero => rfl
  | succ n ih =>
    show solveSingle.go _ _ _ "p" [.var "X"] Ex.loopState = _
    have hf : findRelations (modelOf [inferenceModule (Lens.id InfState)]) Ex.loopState "p" =
      [ruleRelation (Lens.id InfState).get "p"] := rfl
    simp only [solveSingle.go, findRelationValues]
    rw [if_neg (by decide), M.bind_run, M.bind_run]
    simp only [M.gets_run, hf, queryRelations]
    rw [M.bind_run]
    simp only [ruleRelation, handleRule]
    rw [M.bind_run]
    simp only [M.gets_run]
    have hr : ((Lens.id InfState).get Ex.loopState).rules.get "p" =
      some [{ head := [.str "p", .var "X"], body := toQuery [("p", [.var "X"])] }] := rfl
    simp only [hr, solveRules]
    rw [M.bind_run, M.bind_run]
    have hs : solveRule { head := [.str "p", .var "X"], body := toQuery [("p", [.var "X"])] } [.var "X"]
        (solverAt (modelOf [inferenceModule (Lens.id InfState)]) n) [("X", .num 1)] Ex.loopState = .oof := by
      unfold solveRule
      have hb : bindHead [("X", .num 1)] [.var "X"] [.var "X"]
        (Dict.without [("X", .num 1)] (Rule.variables { head := [.str "p", .var "X"], body := toQuery [("p", [.var "X"])] }))
        = some [("X", .num 1)] := by decide +kernel
      simp only [List.tail_cons, hb]
      have he : emptyBody (toQuery [("p", [.var "X"])]) = false := rfl
      simp only [he, Bool.false_eq_true, if_false]
      rw [M.bind_run, ih]
    rw [hs]

/-- **C08** (limit) The number of arguments is not checked against the head of a rule: from `p(1, 2).` alone the query `p(X)` is
answered with `X = 1`. -/
theorem C08_arity_not_checked :
    (solverAt (modelOf [inferenceModule (Lens.id InfState)]) 2).solve (toQuery [("p", [.var "X"])]) []
      { relations := [("learn_rule", .learnRule), ("p", .handleRule)],
        rules := [("p", [{ head := [.str "p", .num 1, .num 2], body := .list [] }])] } =
    .ok { relations := [("learn_rule", .learnRule), ("p", .handleRule)],
          rules := [("p", [{ head := [.str "p", .num 1, .num 2], body := .list [] }])] } (.rows [[("X", .num 1)]]) := by
  decide +kernel

end Verif

import Verif.Generator
import Verif.MemoryLemmas

/-!
# C55, C56: the rule chosen by the generator, the text it puts together and the output buffer
-/

namespace Verif

variable {W : Type}

/-! ## The parts of a write rule (specification) -/

/-- The condition of a write rule: its `sem`; none when the rule is written without one. -/
def WRule.condition (rule : WRule) : List Value :=
  match rule.sem with
  | .user a => a.sem
  | _ => []

/-- `Formats rule f`: the `exec` of the rule is `f`. -/
def Formats (rule : WRule) (f : List Value → Except Err Value) : Prop := ∃ a, rule.sem = .user a ∧ a.exec = some f

/-- `PostBy rule f`: the `post` of the rule is `f`. -/
def PostBy (rule : WRule) (f : Value → Except Err Value) : Prop := ∃ a, rule.sem = .user a ∧ a.post = some f

theorem parts_sem (rule : WRule) : rule.parts.sem = rule.condition := by
  unfold WRule.parts WRule.condition; cases rule.sem <;> rfl

theorem parts_exec {rule : WRule} {f : List Value → Except Err Value} (h : rule.parts.exec = some f) : Formats rule f := by
  unfold WRule.parts at h
  cases hs : rule.sem with
  | user a => rw [hs] at h; exact ⟨a, hs, h⟩
  | _ => rw [hs] at h; cases h

theorem parts_post {rule : WRule} {f : Value → Except Err Value} : rule.parts.post = some f ↔ PostBy rule f := by
  unfold WRule.parts
  cases hs : rule.sem with
  | user a => exact ⟨fun h => ⟨a, hs, h⟩, fun ⟨a', h1, h2⟩ => by rw [hs] at h1; cases h1; exact h2⟩
  | _ => exact ⟨fun h => by simp at h, fun ⟨a', h1, h2⟩ => by rw [hs] at h1; cases h1⟩

theorem parts_no_post {rule : WRule} : rule.parts.post = none ↔ ∀ f, ¬ PostBy rule f := by
  cases h : rule.parts.post with
  | none => exact ⟨fun _ f hf => (by rw [parts_post.2 hf] at h; cases h), fun _ => rfl⟩
  | some f => exact ⟨fun hn => by simp at hn, fun hn => absurd (parts_post.1 h) (hn f)⟩

/-! ## C55 -/

/-- The condition of a write rule holds for the values of its antecedent; `b` is its first solution. A rule without a condition always applies. -/
def CondHolds (api : SolverApi W) (values : List Value) (w : W) (rule : WRule) (b : Binding) : Prop :=
  (rule.condition = [] ∧ b = anteBinding rule.ante.args values) ∨
  (rule.condition ≠ [] ∧ ∃ bs, api.solve (.list rule.condition) (anteBinding rule.ante.args values) w = .ok w (.rows (b :: bs)))

/-- The condition of a write rule has no solution. -/
def CondFails (api : SolverApi W) (values : List Value) (w : W) (rule : WRule) : Prop :=
  rule.condition ≠ [] ∧ ∃ o, api.solve (.list rule.condition) (anteBinding rule.ante.args values) w = .ok w o ∧ o.len = 0

theorem tryWriteRule_holds {api : SolverApi W} {values : List Value} {w : W} {rule : WRule} {b : Binding} (res : Option WRule)
    (h : CondHolds api values w rule b) :
    tryWriteRule api rule res (anteBinding rule.ante.args values) w = .ok w (some rule, b) := by
  unfold tryWriteRule
  rw [parts_sem]
  rcases h with ⟨h1, rfl⟩ | ⟨h1, bs, h2⟩
  · rw [h1]; rfl
  · cases hs : rule.condition with
    | nil => exact absurd hs h1
    | cons a as =>
      rw [hs] at h2
      dsimp only
      rw [M.bind_ok h2]; rfl

theorem tryWriteRule_fails {api : SolverApi W} {values : List Value} {w : W} {rule : WRule} (res : Option WRule)
    (h : CondFails api values w rule) :
    tryWriteRule api rule res (anteBinding rule.ante.args values) w = .ok w (res, anteBinding rule.ante.args values) := by
  unfold tryWriteRule
  rw [parts_sem]
  obtain ⟨h1, o, h2, h3⟩ := h
  cases hs : rule.condition with
  | nil => exact absurd hs h1
  | cons a as =>
    rw [hs] at h2
    dsimp only
    rw [M.bind_ok h2]
    cases o with
    | rows bs =>
      cases bs with
      | nil => rfl
      | cons x xs => simp [SolOut.len] at h3
    | iter _ k =>
      cases k with
      | zero => rfl
      | succ k => simp [SolOut.len] at h3

theorem findRuleLoop_step {api : SolverApi W} {used : List Nat} {values : List Value} {rule : WRule} {rules : List WRule} {res : Option WRule}
    {b0 : Binding} {w : W} {r : Option WRule × Binding}
    (h : tryWriteRule api rule res (anteBinding rule.ante.args values) w = .ok w r) :
    findRuleLoop api used values (rule :: rules) res b0 w =
      if r.1.isSome && !used.contains rule.hash then .ok w r else findRuleLoop api used values rules r.1 r.2 w := by
  rw [findRuleLoop, M.bind_ok h]
  split <;> rfl

/-- Rules that do not apply are passed over as long as none has been found. -/
theorem findRuleLoop_fails {api : SolverApi W} {used : List Nat} {values : List Value} {w : W} {p rest : List WRule}
    (hp : ∀ r ∈ p, CondFails api values w r) (b0 : Binding) :
    ∃ b1, findRuleLoop api used values (p ++ rest) none b0 w = findRuleLoop api used values rest none b1 w := by
  induction p generalizing b0 with
  | nil => exact ⟨b0, rfl⟩
  | cons r p ih =>
    rw [List.cons_append, findRuleLoop_step (tryWriteRule_fails none (hp r (by simp)))]
    exact ih (fun x hx => hp x (List.mem_cons_of_mem _ hx)) _

/-- Rules that have been used are passed over. -/
theorem findRuleLoop_used {api : SolverApi W} {used : List Nat} {values : List Value} {w : W} {p rest : List WRule}
    (hp : ∀ r ∈ p, r.hash ∈ used ∧ (CondFails api values w r ∨ ∃ b, CondHolds api values w r b)) (res : Option WRule) (b0 : Binding) :
    ∃ res1 b1, findRuleLoop api used values (p ++ rest) res b0 w = findRuleLoop api used values rest res1 b1 w := by
  induction p generalizing res b0 with
  | nil => exact ⟨res, b0, rfl⟩
  | cons r p ih =>
    obtain ⟨hu, hc⟩ := hp r (by simp)
    have ih := ih (fun x hx => hp x (List.mem_cons_of_mem _ hx))
    rcases hc with hf | ⟨b, hh⟩
    · rw [List.cons_append, findRuleLoop_step (tryWriteRule_fails res hf)]
      simp only [List.contains_iff_mem.2 hu, Bool.not_true, Bool.and_false, Bool.false_eq_true, ↓reduceIte]
      exact ih _ _
    · rw [List.cons_append, findRuleLoop_step (tryWriteRule_holds res hh)]
      simp only [List.contains_iff_mem.2 hu, Bool.not_true, Bool.and_false, Bool.false_eq_true, ↓reduceIte]
      exact ih _ _

/-- **C55** (part) The generator applies the first rule of the category (with the number of values given) whose condition holds and that has not
been used yet, with the first solution of its condition.

Full statement: `p` is any list of rules each of which fails or has been used. Missing: the case in which a rule that applies but has been used is
followed by an unused rule that does not apply; `C55_used_rule_taken` shows that the code does not do what is claimed there. -/
theorem C55_first_unused_partial {api : SolverApi W} {g : Grammar WriteSem} {used : List Nat} {cat : Str} {values : List Value} {w : W}
    {p q rest : List WRule} {rule : WRule} {b : Binding}
    (hg : g.findRules cat values.length = p ++ (q ++ rule :: rest))
    (hp : ∀ r ∈ p, CondFails api values w r)
    (hq : ∀ r ∈ q, r.hash ∈ used ∧ (CondFails api values w r ∨ ∃ b, CondHolds api values w r b))
    (hr : CondHolds api values w rule b) (hu : rule.hash ∉ used) :
    findRule api g used cat values w = .ok w (some rule, b) := by
  unfold findRule
  rw [hg]
  obtain ⟨b1, h1⟩ := findRuleLoop_fails (used := used) (rest := q ++ rule :: rest) hp []
  obtain ⟨res2, b2, h2⟩ := findRuleLoop_used (rest := rule :: rest) hq none b1
  rw [h1, h2, findRuleLoop_step (tryWriteRule_holds res2 hr)]
  have hc : used.contains rule.hash = false := by
    rw [← Bool.not_eq_true, List.contains_iff_mem]; exact hu
  simp [hu]

/-- What `sol` tells about the conditions of the rules is so: the first solution, or none. -/
def Conditions (api : SolverApi W) (values : List Value) (w : W) (rules : List WRule) (sol : WRule → Option Binding) : Prop :=
  ∀ r ∈ rules, (∀ b, sol r = some b → CondHolds api values w r b) ∧ (sol r = none → CondFails api values w r)

/-- The rule and binding that are chosen from the rules of a category (specification). The rules are looked at up to the first one that has not
been used and that applies or comes after one that applies. The last of these that applies is chosen; the binding is that of the last one looked at,
whether it applies or not. -/
def Chosen (used : List Nat) (values : List Value) (sol : WRule → Option Binding) (rules : List WRule) (res : Option WRule) (b : Binding) : Prop :=
  ∃ seen rest, rules = seen ++ rest ∧
    (∀ p r q, seen = p ++ r :: q → q ≠ [] → r.hash ∈ used ∨ ∀ x ∈ p ++ [r], sol x = none) ∧
    (rest ≠ [] → ∃ p r, seen = p ++ [r] ∧ r.hash ∉ used ∧ ∃ x ∈ seen, sol x ≠ none) ∧
    res = (seen.filter fun x => (sol x).isSome).getLast? ∧
    (∀ p r, seen = p ++ [r] → b = (sol r).getD (anteBinding r.ante.args values))

theorem findRuleLoop_chosen {api : SolverApi W} {used : List Nat} {values : List Value} {w : W} {sol : WRule → Option Binding}
    (rules pre : List WRule) (hc : Conditions api values w rules sol) (b0 : Binding)
    (hpre : ∀ p r q, pre = p ++ r :: q → r.hash ∈ used ∨ ∀ x ∈ p ++ [r], sol x = none)
    (hb : ∀ p r, pre = p ++ [r] → b0 = (sol r).getD (anteBinding r.ante.args values)) :
    ∃ res b, findRuleLoop api used values rules (pre.filter fun x => (sol x).isSome).getLast? b0 w = .ok w (res, b) ∧
      Chosen used values sol (pre ++ rules) res b := by
  induction rules generalizing pre b0 with
  | nil =>
    refine ⟨_, b0, rfl, pre, [], rfl, fun p r q h _ => hpre p r q h, fun h => absurd rfl h, rfl, hb⟩
  | cons r rules ih =>
    have hr := hc r (by simp)
    have hstep : tryWriteRule api r (pre.filter fun x => (sol x).isSome).getLast? (anteBinding r.ante.args values) w =
        .ok w (((pre ++ [r]).filter fun x => (sol x).isSome).getLast?, (sol r).getD (anteBinding r.ante.args values)) := by
      cases hs : sol r with
      | none =>
        rw [tryWriteRule_fails _ (hr.2 hs)]
        simp [hs]
      | some b =>
        rw [tryWriteRule_holds _ (hr.1 b hs)]
        simp [hs]
    rw [findRuleLoop_step hstep]
    have hlast : ∀ p r', pre ++ [r] = p ++ [r'] → (sol r).getD (anteBinding r.ante.args values) = (sol r').getD (anteBinding r'.ante.args values) := by
      intro p r' h
      have := List.append_inj_right' h rfl
      simp only [List.cons.injEq, and_true] at this
      rw [this]
    by_cases hcond : ((((pre ++ [r]).filter fun x => (sol x).isSome).getLast?).isSome && !used.contains r.hash) = true
    · simp only [hcond, ↓reduceIte]
      simp only [Bool.and_eq_true, Bool.not_eq_true', ← Bool.not_eq_true, List.contains_iff_mem] at hcond
      refine ⟨_, _, rfl, pre ++ [r], rules, by simp, ?_, ?_, rfl, hlast⟩
      · intro p x q h hq
        have hq2 : ∃ q2 y, q = q2 ++ [y] := ⟨q.dropLast, q.getLast hq, (List.dropLast_concat_getLast hq).symm⟩
        obtain ⟨q2, y, rfl⟩ := hq2
        have h2 : pre ++ [r] = (p ++ x :: q2) ++ [y] := by rw [h]; simp
        exact hpre p x q2 (List.append_inj_left' h2 rfl)
      · intro _
        refine ⟨pre, r, rfl, hcond.2, ?_⟩
        rw [List.getLast?_isSome] at hcond
        cases hf : (pre ++ [r]).filter fun x => (sol x).isSome with
        | nil => exact absurd hf hcond.1
        | cons x xs =>
          have hx : x ∈ (pre ++ [r]).filter fun x => (sol x).isSome := by rw [hf]; simp
          rw [List.mem_filter] at hx
          refine ⟨x, hx.1, ?_⟩
          intro hn
          rw [hn] at hx
          simp at hx
    · simp only [hcond, Bool.false_eq_true, ↓reduceIte]
      have hcond' : r.hash ∈ used ∨ ∀ x ∈ pre ++ [r], sol x = none := by
        by_cases hu : r.hash ∈ used
        · exact Or.inl hu
        · right
          intro x hx
          cases hsx : sol x with
          | none => rfl
          | some b =>
            exfalso
            apply hcond
            simp only [Bool.and_eq_true, Bool.not_eq_true', ← Bool.not_eq_true, List.contains_iff_mem]
            refine ⟨?_, hu⟩
            rw [List.getLast?_isSome]
            intro hnil
            have : x ∈ (pre ++ [r]).filter fun x => (sol x).isSome := List.mem_filter.2 ⟨hx, by simp [hsx]⟩
            rw [hnil] at this
            simp at this
      have hpre2 : ∀ p x q, pre ++ [r] = p ++ x :: q → x.hash ∈ used ∨ ∀ y ∈ p ++ [x], sol y = none := by
        intro p x q h
        by_cases hq : q = []
        · subst hq
          have h3 := List.append_inj_right' h rfl
          simp only [List.cons.injEq, and_true] at h3
          subst h3
          rw [← h]
          exact hcond'
        · have hq2 : ∃ q2 y, q = q2 ++ [y] := ⟨q.dropLast, q.getLast hq, (List.dropLast_concat_getLast hq).symm⟩
          obtain ⟨q2, y, rfl⟩ := hq2
          have h2 : pre ++ [r] = (p ++ x :: q2) ++ [y] := by rw [h]; simp
          exact hpre p x q2 (List.append_inj_left' h2 rfl)
      obtain ⟨res, b, h1, h2⟩ := ih (pre ++ [r]) (fun x hx => hc x (List.mem_cons_of_mem _ hx)) _ hpre2 hlast
      refine ⟨res, b, h1, ?_⟩
      have : pre ++ r :: rules = pre ++ [r] ++ rules := by simp
      rw [this]; exact h2

/-- **C55** Which rule the generator takes, in all cases: whatever rules have been used and whichever conditions hold. -/
theorem C55_chosen {api : SolverApi W} {g : Grammar WriteSem} {used : List Nat} {cat : Str} {values : List Value} {w : W}
    {sol : WRule → Option Binding} (hc : Conditions api values w (g.findRules cat values.length) sol) :
    ∃ res b, findRule api g used cat values w = .ok w (res, b) ∧ Chosen used values sol (g.findRules cat values.length) res b := by
  have := findRuleLoop_chosen (used := used) (g.findRules cat values.length) [] hc [] (by simp) (by simp)
  simpa [findRule] using this

/-- **C55** When all rules of the category have been used, the last one that applies is used again. -/
theorem C55_all_used {api : SolverApi W} {g : Grammar WriteSem} {used : List Nat} {cat : Str} {values : List Value} {w : W}
    {sol : WRule → Option Binding} (hc : Conditions api values w (g.findRules cat values.length) sol)
    (hu : ∀ r ∈ g.findRules cat values.length, r.hash ∈ used) :
    ∃ b, findRule api g used cat values w = .ok w (((g.findRules cat values.length).filter fun x => (sol x).isSome).getLast?, b) := by
  obtain ⟨res, b, h1, seen, rest, h2, -, h4, h5, -⟩ := C55_chosen (used := used) hc
  refine ⟨b, ?_⟩
  have hr : rest = [] := by
    cases rest with
    | nil => rfl
    | cons x xs =>
      obtain ⟨p, r, e, hn, -⟩ := h4 (by simp)
      exact absurd (hu r (by rw [h2, e]; simp)) hn
  subst hr
  rw [List.append_nil] at h2
  rw [h1, h5, h2]

/-- **C55** When the condition of every rule of the category fails, or there is no rule for it, the generator raises for a mandatory constituent
and produces nothing for an optional one. -/
theorem C55_no_rule {api : SolverApi W} {g : Grammar WriteSem} {used : List Nat} {cat : Str} {values : List Value} {w : W}
    (hg : ∀ r ∈ g.findRules cat values.length, CondFails api values w r) (n : Nat) :
    genNode api g (n + 1) used cat values false w = .err w (.exception "No rule found") ∧
    genNode api g (n + 1) used cat values true w = .ok w (used, .str "") := by
  have h : ∃ b1, findRule api g used cat values w = .ok w (none, b1) := by
    unfold findRule
    obtain ⟨b1, h1⟩ := findRuleLoop_fails (used := used) (rest := []) hg []
    rw [List.append_nil] at h1
    exact ⟨b1, h1⟩
  obtain ⟨b1, h⟩ := h
  constructor
  · rw [genNode, M.bind_ok h]; rfl
  · rw [genNode, M.bind_ok h]; rfl

theorem genConsequent_ok {node : List Nat → Str → List Value → Bool → M W (List Nat × Value)} {rule : WRule} {used : List Nat} {c : Constituent}
    {values : List Value} {w w' : W} {r : List Nat × Value} (h : genConsequent node rule used c values w = .ok w' r) :
    (c.pos = .word ∧ w' = w ∧ r = (used, .str (String.ofList c.predicate))) ∨
    (∃ v, c.pos ≠ .word ∧ c.predicate = categoryValue ∧ firstValue values = .ok v ∧ w' = w ∧ r = (used, v)) ∨
    (∃ v, c.pos ≠ .word ∧ c.predicate = categoryText ∧ firstValue values = .ok v ∧ w' = w ∧ r = (used, .str (pyStr v))) ∨
    (∃ v, c.pos ≠ .word ∧ c.predicate = categoryFormat ∧ callExec rule values = .ok v ∧ w' = w ∧ r = (used, v)) ∨
    (c.pos ≠ .word ∧ c.predicate ≠ categoryValue ∧ c.predicate ≠ categoryText ∧ c.predicate ≠ categoryFormat ∧
      node used c.predicate values c.optional w = .ok w' r) := by
  unfold genConsequent at h
  by_cases h0 : c.pos = .word
  · rw [if_pos h0] at h
    cases h
    exact Or.inl ⟨h0, rfl, rfl⟩
  rw [if_neg h0] at h
  by_cases h1 : c.predicate = categoryValue
  · rw [if_pos h1, M.bind_eq_ok] at h
    obtain ⟨w1, v, h2, h⟩ := h
    obtain ⟨rfl, hv⟩ := M.lift_eq_ok.1 h2
    cases h
    exact Or.inr (Or.inl ⟨v, h0, h1, hv, rfl, rfl⟩)
  rw [if_neg h1] at h
  by_cases h2 : c.predicate = categoryText
  · rw [if_pos h2, M.bind_eq_ok] at h
    obtain ⟨w1, v, h3, h⟩ := h
    obtain ⟨rfl, hv⟩ := M.lift_eq_ok.1 h3
    cases h
    exact Or.inr (Or.inr (Or.inl ⟨v, h0, h2, hv, rfl, rfl⟩))
  rw [if_neg h2] at h
  by_cases h3 : c.predicate = categoryFormat
  · rw [if_pos h3, M.bind_eq_ok] at h
    obtain ⟨w1, v, h4, h⟩ := h
    obtain ⟨rfl, hv⟩ := M.lift_eq_ok.1 h4
    cases h
    exact Or.inr (Or.inr (Or.inr (Or.inl ⟨v, h0, h3, hv, rfl, rfl⟩)))
  rw [if_neg h3] at h
  exact Or.inr (Or.inr (Or.inr (Or.inr ⟨h0, h1, h2, h3, h⟩)))

/-- **C55** Rules that have been used stay recorded as used. -/
theorem C55_used_kept {api : SolverApi W} {g : Grammar WriteSem} (n : Nat) :
    (∀ used cat values opt w w' r, genNode api g n used cat values opt w = .ok w' r → ∀ h ∈ used, h ∈ r.1) ∧
    (∀ rule b cs used w w' r, genWords (genNode api g n) rule b cs used w = .ok w' r → ∀ h ∈ used, h ∈ r.1) := by
  induction n with
  | zero =>
    have h0 : ∀ used cat values opt w w' r, genNode api g 0 used cat values opt w = .ok w' r → ∀ h ∈ used, h ∈ r.1 := by
      intro used cat values opt w w' r h
      simp [genNode] at h
    refine ⟨h0, ?_⟩
    intro rule b cs
    induction cs with
    | nil => intro used w w' r h; simp only [genWords, M.pure_run, Res.ok.injEq] at h; obtain ⟨-, rfl⟩ := h; exact fun _ h => h
    | cons c cs ih =>
      intro used w w' r h
      exact genWords_cons_used h0 ih h
  | succ n ih =>
    have h1 : ∀ used cat values opt w w' r, genNode api g (n + 1) used cat values opt w = .ok w' r → ∀ h ∈ used, h ∈ r.1 := by
      intro used cat values opt w w' r h
      rw [genNode, M.bind_eq_ok] at h
      obtain ⟨w1, ⟨res, b⟩, -, h⟩ := h
      cases res with
      | none =>
        dsimp only at h
        cases opt with
        | false => cases h
        | true => cases h; exact fun _ h => h
      | some rule =>
        dsimp only at h
        rw [M.bind_eq_ok] at h
        obtain ⟨w2, r2, h2, h⟩ := h
        rw [M.bind_eq_ok] at h
        obtain ⟨w3, v, -, h⟩ := h
        cases h
        intro x hx
        exact ih.2 _ _ _ _ _ _ _ h2 x (by simp [hx])
    refine ⟨h1, ?_⟩
    intro rule b cs
    induction cs with
    | nil => intro used w w' r h; simp only [genWords, M.pure_run, Res.ok.injEq] at h; obtain ⟨-, rfl⟩ := h; exact fun _ h => h
    | cons c cs ih =>
      intro used w w' r h
      exact genWords_cons_used h1 ih h
where
  genWords_cons_used {node : List Nat → Str → List Value → Bool → M W (List Nat × Value)}
      (hn : ∀ used cat values opt w w' r, node used cat values opt w = .ok w' r → ∀ h ∈ used, h ∈ r.1)
      {rule : WRule} {b : Binding} {c : Constituent} {cs : List Constituent}
      (ih : ∀ used w w' r, genWords node rule b cs used w = .ok w' r → ∀ h ∈ used, h ∈ r.1)
      {used : List Nat} {w w' : W} {r : List Nat × List Value} (h : genWords node rule b (c :: cs) used w = .ok w' r) :
      ∀ h ∈ used, h ∈ r.1 := by
    rw [genWords, M.bind_eq_ok] at h
    obtain ⟨w1, r1, h1, h⟩ := h
    rw [M.bind_eq_ok] at h
    obtain ⟨w2, r2, h2, h⟩ := h
    cases h
    intro x hx
    refine ih _ _ _ _ h2 x ?_
    rcases genConsequent_ok h1 with ⟨-, -, rfl⟩ | ⟨v, -, -, -, -, rfl⟩ | ⟨v, -, -, -, -, rfl⟩ | ⟨v, -, -, -, -, rfl⟩ | ⟨-, -, -, -, h1⟩
    · exact hx
    · exact hx
    · exact hx
    · exact hx
    · exact hn _ _ _ _ _ _ _ h1 x hx

/-- The values of the antecedent are passed to the variables of the rule. -/
theorem C55_start_binding {variables : List Str} {values : List Value} (hn : variables.Nodup) {x : Str} {v : Value}
    (h : (x, v) ∈ variables.zip values) : (anteBinding variables values).get (String.ofList x) = some v := by
  unfold anteBinding
  suffices hs : ∀ (vs : List Str) (ws : List Value) (b : Binding), vs.Nodup →
      ((x, v) ∈ vs.zip ws ∨ x ∉ vs ∧ b.get (String.ofList x) = some v) →
      ((vs.zip ws).foldl (fun b vv => b.set (String.ofList vv.1) vv.2) b).get (String.ofList x) = some v from hs _ _ _ hn (Or.inl h)
  intro vs
  induction vs with
  | nil => intro ws b _ h; rcases h with h | h
           · simp at h
           · simpa using h.2
  | cons y ys ih =>
    intro ws b hn h
    rw [List.nodup_cons] at hn
    cases ws with
    | nil => rcases h with h | h
             · simp at h
             · simpa using h.2
    | cons z zs =>
      simp only [List.zip_cons_cons, List.foldl_cons]
      refine ih zs _ hn.2 ?_
      rcases h with h | ⟨h1, h2⟩
      · simp only [List.zip_cons_cons, List.mem_cons, Prod.mk.injEq] at h
        rcases h with ⟨rfl, rfl⟩ | h
        · exact Or.inr ⟨hn.1, Dict.get_set_self _ _ _⟩
        · exact Or.inl h
      · simp only [List.mem_cons, not_or] at h1
        refine Or.inr ⟨h1.2, ?_⟩
        rw [Dict.get_set_of_ne _ _ ?_]
        · exact h2
        · intro he
          exact h1.1 (String.ofList_injective he).symm

/-! ### The rule of the claim is not always taken -/

namespace GenEx

/-- A solver for the examples: the atom `yes()` holds, other conditions fail. -/
def api : SolverApi Unit where
  solve := fun q b => if q = .list [.tuple [.str "yes"]] then pure (.rows [b]) else pure (.rows [])
  writeAtom := fun _ => pure ()

/-- `s(E) -> 'x'` with a condition. -/
def rule (e word : Char) (cond : String) (hash : Nat) : WRule :=
  ⟨⟨['s'], [[e]], .relation, false, false⟩, [⟨[word], [], .word, false, false⟩], .user ⟨[.tuple [.str cond]], none, none⟩, 0, hash⟩

/-- Three rules; the conditions of the first and the third hold. -/
def rules : List WRule := [rule 'A' 'a' "yes" 1, rule 'B' 'b' "no" 2, rule 'C' 'c' "yes" 3]

/-- The grammar. -/
def grammar : Grammar WriteSem := [(['s'], [(1, rules)])]

theorem holds1 : CondHolds api [.num 5] () (rule 'A' 'a' "yes" 1) [("A", .num 5)] := Or.inr ⟨by simp [rule, WRule.condition], [], rfl⟩
theorem holds3 : CondHolds api [.num 5] () (rule 'C' 'c' "yes" 3) [("C", .num 5)] := Or.inr ⟨by simp [rule, WRule.condition], [], rfl⟩
theorem fails2 : CondFails api [.num 5] () (rule 'B' 'b' "no" 2) := ⟨by simp [rule, WRule.condition], .rows [], rfl, rfl⟩

end GenEx

/-- The code does not do what C55 claims: the first rule applies but has been used, the second does not apply, the third applies and has not been
used. The first is chosen, and with the binding made for the second. -/
theorem C55_used_rule_taken :
    findRule GenEx.api GenEx.grammar [1] ['s'] [.num 5] () = .ok () (some (GenEx.rule 'A' 'a' "yes" 1), [("B", .num 5)]) ∧
    (GenEx.rule 'A' 'a' "yes" 1).hash ∈ [1] ∧
    CondHolds GenEx.api [.num 5] () (GenEx.rule 'C' 'c' "yes" 3) [("C", .num 5)] ∧ (GenEx.rule 'C' 'c' "yes" 3).hash ∉ [1] :=
  ⟨rfl, by simp [GenEx.rule], GenEx.holds3, by simp [GenEx.rule]⟩

/-- `C55_first_unused_partial` applies when the second rule has been used too. -/
example : findRule GenEx.api GenEx.grammar [1, 2] ['s'] [.num 5] () = .ok () (some (GenEx.rule 'C' 'c' "yes" 3), [("C", .num 5)]) :=
  C55_first_unused_partial (p := []) (q := [GenEx.rule 'A' 'a' "yes" 1, GenEx.rule 'B' 'b' "no" 2]) (rest := []) rfl (by simp)
    (by
      intro r hr
      simp only [List.mem_cons, List.not_mem_nil, or_false] at hr
      rcases hr with rfl | rfl
      · exact ⟨by simp [GenEx.rule], Or.inr ⟨_, GenEx.holds1⟩⟩
      · exact ⟨by simp [GenEx.rule], Or.inl GenEx.fails2⟩)
    GenEx.holds3 (by simp [GenEx.rule])

/-- The conditions of the rules of the example. -/
theorem GenEx.conditions : Conditions GenEx.api [.num 5] () (GenEx.grammar.findRules ['s'] 1)
    (fun r => if r.hash = 2 then none else if r.hash = 1 then some [("A", .num 5)] else some [("C", .num 5)]) := by
  intro r hr
  have hr' : r ∈ [GenEx.rule 'A' 'a' "yes" 1, GenEx.rule 'B' 'b' "no" 2, GenEx.rule 'C' 'c' "yes" 3] := hr
  simp only [List.mem_cons, List.not_mem_nil, or_false] at hr'
  rcases hr' with rfl | rfl | rfl
  · refine ⟨fun b hb => ?_, fun h => by simp [GenEx.rule] at h⟩
    simp only [GenEx.rule, Nat.reduceEqDiff, ↓reduceIte, Option.some.injEq] at hb
    subst hb
    exact GenEx.holds1
  · refine ⟨fun b hb => by simp [GenEx.rule] at hb, fun _ => GenEx.fails2⟩
  · refine ⟨fun b hb => ?_, fun h => by simp [GenEx.rule] at h⟩
    simp only [GenEx.rule, Nat.reduceEqDiff, ↓reduceIte, Option.some.injEq] at hb
    subst hb
    exact GenEx.holds3

/-- `C55_chosen` and `C55_all_used` apply to the example. -/
example : ∃ b, findRule GenEx.api GenEx.grammar [1, 2, 3] ['s'] [.num 5] () = .ok () (some (GenEx.rule 'C' 'c' "yes" 3), b) :=
  C55_all_used GenEx.conditions (by
    intro r hr
    have hr' : r ∈ [GenEx.rule 'A' 'a' "yes" 1, GenEx.rule 'B' 'b' "no" 2, GenEx.rule 'C' 'c' "yes" 3] := hr
    simp only [List.mem_cons, List.not_mem_nil, or_false] at hr'
    rcases hr' with rfl | rfl | rfl <;> simp [GenEx.rule])

/-- `C55_no_rule` applies to a category whose only rule has a condition that fails. -/
example : genNode GenEx.api [(['s'], [(1, [GenEx.rule 'B' 'b' "no" 2])])] 1 [] ['s'] [.num 5] false () = .err () (.exception "No rule found") :=
  (C55_no_rule (n := 0) (by
    intro r hr
    have : r = GenEx.rule 'B' 'b' "no" 2 := by simpa [Grammar.findRules, Assoc.get] using hr
    subst this
    exact GenEx.fails2)).1

/-- `C55_start_binding` applies to two variables. -/
example : (anteBinding [['A'], ['B']] [.num 1, .num 2]).get (String.ofList ['B']) = some (.num 2) :=
  C55_start_binding (by decide) (by simp)

/-! ## C56 -/

/-- A derivation: words and values, optional constituents left out, and applications of rules. -/
inductive Deriv where
  | leaf (v : Value)
  | skip
  | node (rule : WRule) (b : Binding) (parts : List Deriv)

/-- The value of the argument of a constituent: the value of the variable, or the empty text. -/
def genArgValue (b : Binding) (x : Str) : Value :=
  match b.get (String.ofList x) with
  | some v => v
  | none => .str ""

mutual
/-- `DerivNode g cat values opt d`: `d` derives the category `cat` with these values from the grammar. -/
inductive DerivNode (g : Grammar WriteSem) : Str → List Value → Bool → Deriv → Prop where
  | skip (cat values) : DerivNode g cat values true .skip
  | node {cat values opt rule b parts} : rule ∈ g.findRules cat values.length → DerivParts g rule b rule.cons parts →
      DerivNode g cat values opt (.node rule b parts)
/-- `DerivParts g rule b cs ds`: the derivations `ds` belong to the constituents `cs` of the rule, one by one. -/
inductive DerivParts (g : Grammar WriteSem) : WRule → Binding → List Constituent → List Deriv → Prop where
  | nil (rule b) : DerivParts g rule b [] []
  | cons {rule b c cs d ds} : DerivPart g rule b c d → DerivParts g rule b cs ds → DerivParts g rule b (c :: cs) (d :: ds)
/-- `DerivPart g rule b c d`: `d` derives the constituent `c` of the rule. -/
inductive DerivPart (g : Grammar WriteSem) : WRule → Binding → Constituent → Deriv → Prop where
  | word {rule b c} : c.pos = .word → DerivPart g rule b c (.leaf (.str (String.ofList c.predicate)))
  | value {rule b c x xs} : c.pos ≠ .word → c.predicate = ['v', 'a', 'l', 'u', 'e'] → c.args = x :: xs →
      DerivPart g rule b c (.leaf (genArgValue b x))
  | text {rule b c x xs} : c.pos ≠ .word → c.predicate = ['t', 'e', 'x', 't'] → c.args = x :: xs →
      DerivPart g rule b c (.leaf (.str (pyStr (genArgValue b x))))
  | format {rule b c f v} : c.pos ≠ .word → c.predicate = ['f', 'o', 'r', 'm', 'a', 't'] → Formats rule f →
      f (c.args.map (genArgValue b)) = .ok v → DerivPart g rule b c (.leaf v)
  | node {rule b c d} : c.pos ≠ .word → c.predicate ∉ [['v', 'a', 'l', 'u', 'e'], ['t', 'e', 'x', 't'], ['f', 'o', 'r', 'm', 'a', 't']] →
      DerivNode g c.predicate (c.args.map (genArgValue b)) c.optional d → DerivPart g rule b c d
end

/-- `Combined vs v`: the results of the parts are put together: texts are concatenated, a single value is kept, other values form a list. -/
inductive Combined : List Value → Value → Prop where
  | texts (ss : List String) : Combined (ss.map .str) (.str (String.join ss))
  | single (v : Value) : Combined [v] v
  | list {vs : List Value} : (∃ v ∈ vs, ∀ s, v ≠ .str s) → vs.length ≠ 1 → Combined vs (.list vs)

mutual
/-- The result of a derivation: a word or value is itself, a constituent left out is the empty text, and a rule has the results of its parts put
together, handed to `post` if the rule has one. -/
inductive DerivResult : Deriv → Value → Prop where
  | leaf (v) : DerivResult (.leaf v) v
  | skip : DerivResult .skip (.str "")
  | node {rule b parts vs v} : (∀ f, ¬ PostBy rule f) → DerivResults parts vs → Combined vs v → DerivResult (.node rule b parts) v
  | post {rule b parts vs v f v'} : PostBy rule f → DerivResults parts vs → Combined vs v → f v = .ok v' →
      DerivResult (.node rule b parts) v'
/-- The results of derivations one by one. -/
inductive DerivResults : List Deriv → List Value → Prop where
  | nil : DerivResults [] []
  | cons {d ds v vs} : DerivResult d v → DerivResults ds vs → DerivResults (d :: ds) (v :: vs)
end

theorem consequentValues_eq {c : Constituent} (h : c.pos ≠ .word) (b : Binding) : consequentValues c b = c.args.map (genArgValue b) := by
  unfold consequentValues
  apply List.map_congr_left
  intro a _
  rw [if_neg h]
  unfold genArgValue
  cases b.get (String.ofList a) <;> rfl

theorem textsOf_strs (ss : List String) : textsOf (ss.map .str) = ss := by
  induction ss with
  | nil => rfl
  | cons s ss ih => simp [textsOf, ih]

theorem textsOf_length (vs : List Value) : (textsOf vs).length ≤ vs.length := by
  induction vs with
  | nil => simp [textsOf]
  | cons v vs ih => cases v <;> simp only [textsOf, List.length_cons] <;> omega

theorem textsOf_all {vs : List Value} (h : (textsOf vs).length = vs.length) : vs = (textsOf vs).map .str := by
  induction vs with
  | nil => rfl
  | cons v vs ih =>
    have hl := textsOf_length vs
    cases v <;> simp only [textsOf, List.length_cons] at h ⊢
    case str s => rw [List.map_cons, ← ih (by omega)]
    all_goals omega

theorem combineWords_combined (vs : List Value) : Combined vs (combineWords vs) := by
  unfold combineWords
  by_cases h : (textsOf vs).length = vs.length
  · simp only [h, ↓reduceIte]
    have h2 := Combined.texts (textsOf vs)
    rw [← textsOf_all h] at h2
    exact h2
  · simp only [h, ↓reduceIte]
    have hne : ∃ v ∈ vs, ∀ s, v ≠ .str s := by
      induction vs with
      | nil => simp [textsOf] at h
      | cons v vs ih =>
        cases v with
        | str s =>
          simp only [textsOf, List.length_cons, Nat.add_right_cancel_iff] at h
          obtain ⟨x, hx, hn⟩ := ih h
          exact ⟨x, List.mem_cons_of_mem _ hx, hn⟩
        | _ => exact ⟨_, List.mem_cons_self, by simp⟩
    match vs with
    | [] => exact .list hne (by simp)
    | [v] => exact .single v
    | v1 :: v2 :: vs => exact .list hne (by simp)

theorem genNode_deriv (api : SolverApi W) (g : Grammar WriteSem) (n : Nat) :
    ∀ used cat values opt w w' r, genNode api g n used cat values opt w = .ok w' r →
      ∃ d, DerivNode g cat values opt d ∧ DerivResult d r.2 := by
  induction n with
  | zero => intro used cat values opt w w' r h; simp [genNode] at h
  | succ n ih =>
    intro used cat values opt w w' r h
    have hparts : ∀ rule b cs used w w' r, genWords (genNode api g n) rule b cs used w = .ok w' r →
        ∃ ds, DerivParts g rule b cs ds ∧ DerivResults ds r.2 := by
      intro rule b cs
      induction cs with
      | nil =>
        intro used w w' r h
        cases h
        exact ⟨[], .nil _ _, .nil⟩
      | cons c cs ihc =>
        intro used w w' r h
        rw [genWords, M.bind_eq_ok] at h
        obtain ⟨w1, r1, h1, h⟩ := h
        rw [M.bind_eq_ok] at h
        obtain ⟨w2, r2, h2, h⟩ := h
        cases h
        obtain ⟨ds, hds, hts⟩ := ihc _ _ _ _ h2
        have hone : ∃ d, DerivPart g rule b c d ∧ DerivResult d r1.2 := by
          rcases genConsequent_ok h1 with ⟨hp, -, rfl⟩ | ⟨v, hp, hc, hv, -, rfl⟩ | ⟨v, hp, hc, hv, -, rfl⟩ | ⟨v, hp, hc, hv, -, rfl⟩ |
            ⟨hp, n1, n2, n3, h1⟩
          · exact ⟨_, .word hp, .leaf _⟩
          · rw [consequentValues_eq hp] at hv
            cases ha : c.args with
            | nil => rw [ha] at hv; cases hv
            | cons x xs =>
              rw [ha] at hv
              cases hv
              exact ⟨_, .value hp hc ha, .leaf _⟩
          · rw [consequentValues_eq hp] at hv
            cases ha : c.args with
            | nil => rw [ha] at hv; cases hv
            | cons x xs =>
              rw [ha] at hv
              cases hv
              exact ⟨_, .text hp hc ha, .leaf _⟩
          · rw [consequentValues_eq hp] at hv
            unfold callExec at hv
            cases he : rule.parts.exec with
            | none => rw [he] at hv; cases hv
            | some f =>
              rw [he] at hv
              exact ⟨_, .format hp hc (parts_exec he) hv, .leaf _⟩
          · rw [consequentValues_eq hp] at h1
            obtain ⟨d, hd, ht⟩ := ih _ _ _ _ _ _ _ h1
            exact ⟨d, .node hp (by simpa using ⟨n1, n2, n3⟩) hd, ht⟩
        obtain ⟨d, hd, ht⟩ := hone
        exact ⟨d :: ds, .cons hd hds, .cons ht hts⟩
    rw [genNode, M.bind_eq_ok] at h
    obtain ⟨w1, ⟨res, b⟩, hf, h⟩ := h
    cases res with
    | none =>
      dsimp only at h
      cases opt with
      | false => cases h
      | true =>
        cases h
        exact ⟨.skip, .skip _ _, .skip⟩
    | some rule =>
      dsimp only at h
      rw [M.bind_eq_ok] at h
      obtain ⟨w2, r2, h2, h⟩ := h
      rw [M.bind_eq_ok] at h
      obtain ⟨w3, v, h3, h⟩ := h
      cases h
      obtain ⟨-, h3⟩ := M.lift_eq_ok.1 h3
      obtain ⟨ds, hds, hts⟩ := hparts _ _ _ _ _ _ _ h2
      refine ⟨.node rule b ds, .node (findRule_mem hf) hds, ?_⟩
      unfold postProcess at h3
      cases hp : rule.parts.post with
      | none =>
        rw [hp] at h3
        cases h3
        exact .node (parts_no_post.1 hp) hts (combineWords_combined _)
      | some f =>
        rw [hp] at h3
        exact .post (parts_post.1 hp) hts (combineWords_combined _) h3
where
  findRule_mem {g : Grammar WriteSem} {used : List Nat} {cat : Str} {values : List Value} {w w' : W} {rule : WRule} {b : Binding}
      (h : findRule api g used cat values w = .ok w' (some rule, b)) : rule ∈ g.findRules cat values.length := by
    unfold findRule at h
    suffices hs : ∀ (rules : List WRule) (res : Option WRule) (b0 : Binding) (w : W) ,
        findRuleLoop api used values rules res b0 w = .ok w' (some rule, b) → rule ∈ rules ∨ res = some rule by
      rcases hs _ _ _ _ h with h | h
      · exact h
      · cases h
    intro rules
    induction rules with
    | nil => intro res b0 w h; cases h; exact Or.inr rfl
    | cons r rules ih =>
      intro res b0 w h
      rw [findRuleLoop, M.bind_eq_ok] at h
      obtain ⟨w1, x, hx, h⟩ := h
      have hx1 : x.1 = some r ∨ x.1 = res := by
        unfold tryWriteRule at hx
        cases hs : r.parts.sem with
        | nil => rw [hs] at hx; cases hx; exact Or.inl rfl
        | cons a as =>
          rw [hs] at hx
          dsimp only at hx
          rw [M.bind_eq_ok] at hx
          obtain ⟨w2, o, -, hx⟩ := hx
          cases o with
          | rows bs => cases bs with
            | nil => cases hx; exact Or.inr rfl
            | cons y ys => cases hx; exact Or.inl rfl
          | iter _ k => cases k with
            | zero => cases hx; exact Or.inr rfl
            | succ k => cases hx
      split at h
      · cases h
        rcases hx1 with h | h
        · cases h; exact Or.inl (by simp)
        · exact Or.inr h.symm
      · rcases ih _ _ _ h with h | h
        · exact Or.inl (List.mem_cons_of_mem _ h)
        · rcases hx1 with h' | h'
          · rw [h] at h'; cases h'; exact Or.inl (by simp)
          · exact Or.inr (by rw [← h', h])

/-- **C56** What `generate_output` returns is the result of a derivation of `s` from the write grammar: its words and values put together in order.
The output buffer is empty afterwards. -/
theorem C56_output {api : SolverApi W} {g : Grammar WriteSem} {l : Lens W SimpleStore} {n : Nat} {w w' : W} {v : Value}
    (h : generateOutput api g l n w = .ok w' v) :
    (∃ d, DerivNode g ['s'] [] false d ∧ DerivResult d v) ∧ l.get w' = [] := by
  unfold generateOutput at h
  rw [M.bind_eq_ok] at h
  obtain ⟨w1, r, h1, h⟩ := h
  obtain ⟨d, hd, ht⟩ := genNode_deriv api g n _ _ _ _ _ _ _ h1
  rw [clearBuffer, M.bind_ok (M.modify_run _ w1)] at h
  cases h
  exact ⟨⟨d, hd, ht⟩, l.get_put _ _⟩

mutual
/-- The words and values of a derivation, from left to right. -/
def Deriv.leaves : Deriv → List Value
  | .leaf v => [v]
  | .skip => []
  | .node _ _ parts => Deriv.leavesList parts
/-- The words and values of derivations. -/
def Deriv.leavesList : List Deriv → List Value
  | [] => []
  | d :: ds => d.leaves ++ Deriv.leavesList ds
end

mutual
/-- No rule of the derivation has a `post` function. -/
def Deriv.NoPost : Deriv → Prop
  | .leaf _ => True
  | .skip => True
  | .node rule _ parts => (∀ f, ¬ PostBy rule f) ∧ Deriv.NoPostList parts
/-- No rule of the derivations has a `post` function. -/
def Deriv.NoPostList : List Deriv → Prop
  | [] => True
  | d :: ds => d.NoPost ∧ Deriv.NoPostList ds
end

theorem foldl_append_str (ss : List String) (a : String) : ss.foldl (fun r s => r ++ s) a = a ++ String.join ss := by
  unfold String.join
  induction ss generalizing a with
  | nil => simp
  | cons s ss ih => rw [List.foldl_cons, List.foldl_cons, ih, ih ("" ++ s)]; simp [String.append_assoc]

theorem join_cons (s : String) (ss : List String) : String.join (s :: ss) = s ++ String.join ss := by
  conv => lhs; unfold String.join
  rw [List.foldl_cons, foldl_append_str]; simp

theorem join_append (ss ts : List String) : String.join (ss ++ ts) = String.join ss ++ String.join ts := by
  induction ss with
  | nil => simp [String.join]
  | cons s ss ih => rw [List.cons_append, join_cons, join_cons, ih, String.append_assoc]

theorem append_eq_map_str {xs ys : List Value} {ss : List String} (h : xs ++ ys = ss.map .str) :
    ∃ s1 s2, ss = s1 ++ s2 ∧ xs = s1.map .str ∧ ys = s2.map .str := by
  obtain ⟨s1, s2, h1, h2, h3⟩ := List.append_eq_map_iff.1 h
  exact ⟨s1, s2, h1, h2.symm, h3.symm⟩

theorem combined_texts {ss : List String} {v : Value} (h : Combined (ss.map .str) v) : v = .str (String.join ss) := by
  generalize hv : ss.map Value.str = vs at h
  cases h with
  | texts ts =>
    have : ss = ts := List.map_inj_right (fun a b h => Value.str.inj h) |>.1 hv
    rw [this]
  | single =>
    cases ss with
    | nil => cases hv
    | cons s ss => cases ss with
      | nil => cases hv; rw [join_cons]; simp [String.join]
      | cons => cases hv
  | list h1 _ =>
    obtain ⟨v, hm, hn⟩ := h1
    rw [← hv, List.mem_map] at hm
    obtain ⟨s, -, rfl⟩ := hm
    exact absurd rfl (hn s)

mutual
theorem derivResult_leaves (d : Deriv) (hp : d.NoPost) (ss : List String) (hs : d.leaves = ss.map .str) (v : Value) (hv : DerivResult d v) :
    v = .str (String.join ss) := by
  cases d with
  | leaf u =>
    cases hv
    cases ss with
    | nil => simp [Deriv.leaves] at hs
    | cons s ss =>
      simp only [Deriv.leaves, List.map_cons, List.cons.injEq, List.nil_eq, List.map_eq_nil_iff] at hs
      obtain ⟨rfl, rfl⟩ := hs
      rw [join_cons]; simp [String.join]
  | skip =>
    cases hv
    cases ss with
    | nil => rfl
    | cons s ss => simp [Deriv.leaves] at hs
  | node rule b parts =>
    rw [Deriv.NoPost] at hp
    rw [Deriv.leaves] at hs
    cases hv with
    | node _ hvs hc =>
      obtain ⟨ts, rfl, h2⟩ := derivResults_leaves parts hp.2 ss hs _ hvs
      rw [combined_texts hc, h2]
    | post hpost _ _ _ => exact absurd hpost (hp.1 _)
theorem derivResults_leaves (ds : List Deriv) (hp : Deriv.NoPostList ds) (ss : List String) (hs : Deriv.leavesList ds = ss.map .str)
    (vs : List Value) (hv : DerivResults ds vs) : ∃ ts, vs = ts.map .str ∧ String.join ts = String.join ss := by
  cases ds with
  | nil =>
    cases hv
    cases ss with
    | nil => exact ⟨[], rfl, rfl⟩
    | cons s ss => simp [Deriv.leavesList] at hs
  | cons d ds =>
    rw [Deriv.NoPostList] at hp
    rw [Deriv.leavesList] at hs
    obtain ⟨s1, s2, rfl, h1, h2⟩ := append_eq_map_str hs
    cases hv with
    | cons hv1 hv2 =>
      obtain ⟨ts, h3, h4⟩ := derivResults_leaves ds hp.2 s2 h2 _ hv2
      refine ⟨String.join s1 :: ts, ?_, ?_⟩
      · rw [List.map_cons, derivResult_leaves d hp.1 s1 h1 _ hv1, h3]
      · rw [join_cons, join_append, h4]
end

/-- **C56** Without `post` functions the result of a derivation is the concatenation of its words and values from left to right, if these are
texts. -/
theorem C56_concatenation {api : SolverApi W} {g : Grammar WriteSem} {l : Lens W SimpleStore} {n : Nat} {w w' : W} {v : Value}
    (h : generateOutput api g l n w = .ok w' v) :
    ∃ d, DerivNode g ['s'] [] false d ∧ DerivResult d v ∧ (d.NoPost → ∀ ss, d.leaves = ss.map .str → v = .str (String.join ss)) := by
  obtain ⟨⟨d, hd, ht⟩, -⟩ := C56_output h
  exact ⟨d, hd, ht, fun hp ss hs => derivResult_leaves d hp ss hs v ht⟩

/-- **C56** After `generate_output` a query to the output buffer has no answers: nothing leaks into the next answer. -/
theorem C56_nothing_left {api : SolverApi W} {g : Grammar WriteSem} {l : Lens W SimpleStore} {n : Nat} {w w' : W} {v : Value}
    (h : generateOutput api g l n w = .ok w' v) (p : String) (cs : List String) (values : List Value) (ctx : Ctx W) :
    (memoryRelation l p cs).query values ctx w' = .ok w' (.rows []) := by
  have h1 := (C56_output h).2
  show memoryQuery l values { ctx with predicate := p, columns := cs } w' = _
  unfold memoryQuery
  rw [M.bind_ok (M.gets_run _ w'), h1]
  rfl

/-! ### Examples -/

namespace GenEx

/-- `s() -> 'The ' value(X) name(Y)? '.'` if `output_value(X)`. -/
def top : WRule :=
  ⟨⟨['s'], [], .relation, false, false⟩,
   [⟨['T', 'h', 'e', ' '], [], .word, false, false⟩, ⟨['t', 'e', 'x', 't'], [['X']], .relation, false, false⟩,
    ⟨['n', 'p'], [['X']], .relation, true, false⟩, ⟨['.'], [], .word, false, false⟩],
   .user ⟨[.tuple [.str "output_value", .var "X"]], none, none⟩, 0, 7⟩

/-- The grammar of the example. -/
def outGrammar : Grammar WriteSem := [(['s'], [(0, [top])])]

/-- The solver of the output buffer; the world is the buffer. -/
def outApi : SolverApi SimpleStore := solverAt [outputBuffer (Lens.id _)] 2

/-- `C56_output` and its corollaries apply: the buffer holds one value. -/
theorem output_runs : generateOutput outApi outGrammar (Lens.id _) 3 [("output_value", [[("value", .num 12)]])] =
    .ok [] (.str "The 12.") := by decide +kernel

/-- The output buffer keeps its contents when no rule applies and an exception is raised: the claim of C56 is limited to runs that return. -/
theorem C56_kept_on_exception : generateOutput outApi outGrammar (Lens.id _) 3 [("output_type", [[("type", .str "list")]])] =
    .err [("output_type", [[("type", .str "list")]])] (.exception "No rule found") := by decide +kernel

end GenEx

example : ∃ d, DerivNode GenEx.outGrammar ['s'] [] false d ∧ DerivResult d (.str "The 12.") := by
  obtain ⟨d, h1, h2, -⟩ := C56_concatenation GenEx.output_runs
  exact ⟨d, h1, h2⟩

namespace GenEx

/-- `s() -> format(X) '!'` if `output_value(X)`, with an `exec` that names the number of values and a `post` that puts `<` before the text. -/
def marked : WRule :=
  ⟨⟨['s'], [], .relation, false, false⟩,
   [⟨['f', 'o', 'r', 'm', 'a', 't'], [['X']], .relation, false, false⟩, ⟨['!'], [], .word, false, false⟩],
   .user ⟨[.tuple [.str "output_value", .var "X"]], some fun vs => .ok (.str (toString vs.length)),
     some fun v => .ok (.str ("<" ++ pyStr v))⟩, 0, 8⟩

theorem marked_runs : generateOutput outApi [(['s'], [(0, [marked])])] (Lens.id _) 3 [("output_value", [[("value", .num 12)]])] =
    .ok [] (.str "<1!") := by decide +kernel

end GenEx

example : ∃ d, DerivNode [(['s'], [(0, [GenEx.marked])])] ['s'] [] false d ∧ DerivResult d (.str "<1!") := by
  obtain ⟨d, h1, h2, -⟩ := C56_concatenation GenEx.marked_runs
  exact ⟨d, h1, h2⟩

end Verif

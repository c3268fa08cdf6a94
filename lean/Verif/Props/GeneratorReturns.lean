import Verif.Props.Generator
import Verif.Props.Memory

/-!
# C101: generating output returns

Categories that call each other in circles are the danger: `generate_node` calls itself for the parts of a rule
(`richard/core/BasicGenerator.py:149`). The list of used rules is meant to prevent endless repetition.
-/

namespace Verif

variable {W : Type}

/-! ## Specification -/

/-- The rule has a part of category `p` with `k` arguments for which a rule must be found: not a word, and not one of the categories that stand for
values. -/
def WRule.Needs (r : WRule) (p : Str) (k : Nat) : Prop :=
  p ≠ "value".toList ∧ p ≠ "text".toList ∧ p ≠ "format".toList ∧ ∃ c ∈ r.cons, c.pos ≠ .word ∧ c.predicate = p ∧ c.args.length = k

/-- The rule, used for category `cat` with `k` arguments, needs only categories of lower rank. -/
def Lower (rank : Str → Nat → Nat) (cat : Str) (k : Nat) (r : WRule) : Prop := ∀ p m, r.Needs p m → rank p m < rank cat k

/-- A rule of the grammar either needs only lower categories, or is followed by other rules of its category, all without conditions. In particular
the last rule of a category needs only lower categories. -/
def Grounded (g : Grammar WriteSem) (rank : Str → Nat → Nat) : Prop :=
  ∀ cat k pre r post, g.findRules cat k = pre ++ r :: post → Lower rank cat k r ∨ (post ≠ [] ∧ ∀ s ∈ post, WRule.condition s = [])

/-- The solver returns on the conditions of the grammar, in all worlds of a kind that it does not leave. -/
def ConditionsReturn (api : SolverApi W) (g : Grammar WriteSem) (I : W → Prop) : Prop :=
  ∀ cat k, ∀ r ∈ g.findRules cat k, WRule.condition r ≠ [] → ∀ b w, I w →
    api.solve (.list (WRule.condition r)) b w ≠ .oof ∧ ∀ w' o, api.solve (.list (WRule.condition r)) b w = .ok w' o → I w'

/-! ## Lemmas -/

/-- The run from a world of the kind returns, and when it is without exception the world is of the kind and the result has the property. -/
private def Ends (I : W → Prop) {α : Type} (m : M W α) (Q : α → Prop) : Prop :=
  ∀ w, I w → m w ≠ .oof ∧ ∀ w' a, m w = .ok w' a → I w' ∧ Q a

private theorem ends_pure {I : W → Prop} {α : Type} {a : α} {Q : α → Prop} (h : Q a) : Ends I (pure a : M W α) Q := by
  intro w hw
  refine ⟨by simp, fun w' a' h' => ?_⟩
  obtain ⟨rfl, rfl⟩ := M.pure_eq_ok.1 h'
  exact ⟨hw, h⟩

private theorem ends_throw {I : W → Prop} {α : Type} {e : Err} {Q : α → Prop} : Ends I (M.throw e : M W α) Q :=
  fun _ _ => ⟨by simp, fun _ _ h => by simp at h⟩

private theorem ends_lift {I : W → Prop} {α : Type} (x : Except Err α) {Q : α → Prop} (h : ∀ a, Q a) : Ends I (M.lift x : M W α) Q := by
  cases x with
  | ok a => exact ends_pure (h a)
  | error e => exact ends_throw

private theorem ends_bind {I : W → Prop} {α β : Type} {m : M W α} {f : α → M W β} {P : α → Prop} {Q : β → Prop} (hm : Ends I m P)
    (hf : ∀ a, P a → Ends I (f a) Q) : Ends I (m >>= f) Q := by
  intro w hw
  obtain ⟨h1, h2⟩ := hm w hw
  rw [M.bind_run]
  cases h : m w with
  | ok w1 a =>
    obtain ⟨hw1, ha⟩ := h2 w1 a h
    exact hf a ha w1 hw1
  | err w1 e => exact ⟨by simp, fun _ _ h => by simp at h⟩
  | oof => exact absurd h h1

private theorem try_ends {api : SolverApi W} {I : W → Prop} {rule : WRule}
    (h : rule.condition ≠ [] → ∀ b w, I w → api.solve (.list rule.condition) b w ≠ .oof ∧
      ∀ w' o, api.solve (.list rule.condition) b w = .ok w' o → I w') (res : Option WRule) (b : Binding) :
    Ends I (tryWriteRule api rule res b) fun x => x.1 = some rule ∨ (x.1 = res ∧ rule.condition ≠ []) := by
  unfold tryWriteRule
  rw [parts_sem]
  cases hc : rule.condition with
  | nil => exact ends_pure (Or.inl rfl)
  | cons a as =>
    rw [hc] at h
    refine ends_bind (P := fun _ => True) (fun w hw => ?_) fun o _ => ?_
    · obtain ⟨h1, h2⟩ := h (by simp) b w hw
      exact ⟨h1, fun w' o ho => ⟨h2 w' o ho, trivial⟩⟩
    · cases o with
      | rows rs => cases rs with
        | nil => exact ends_pure (Or.inr ⟨rfl, by simp⟩)
        | cons r rs => exact ends_pure (Or.inl rfl)
      | iter x n => cases n with
        | zero => exact ends_pure (Or.inr ⟨rfl, by simp⟩)
        | succ n => exact ends_throw

private theorem loop_ends {api : SolverApi W} {I : W → Prop} {used : List Nat} {values : List Value} {L : WRule → Prop} :
    ∀ (rules : List WRule) (res : Option WRule) (b : Binding),
      (∀ r ∈ rules, r.condition ≠ [] → ∀ b w, I w → api.solve (.list r.condition) b w ≠ .oof ∧
        ∀ w' o, api.solve (.list r.condition) b w = .ok w' o → I w') →
      (∀ pre r post, rules = pre ++ r :: post → L r ∨ (post ≠ [] ∧ ∀ s ∈ post, s.condition = [])) →
      (∀ r, res = some r → L r ∨ (rules ≠ [] ∧ ∀ s ∈ rules, s.condition = [])) →
      Ends I (findRuleLoop api used values rules res b) fun x => ∀ r, x.1 = some r → (r ∈ rules ∨ res = some r) ∧ (r.hash ∉ used ∨ L r)
  | [], res, b, _, _, hr => by
    refine ends_pure fun r h => ⟨Or.inr h, Or.inr ?_⟩
    rcases hr r h with h | h
    · exact h
    · exact absurd rfl h.1
  | rule :: rules, res, b, hc, hg, hr => by
    unfold findRuleLoop
    refine ends_bind (try_ends (hc rule (by simp)) res _) fun x hx => ?_
    obtain ⟨res', b'⟩ := x
    simp only at hx ⊢
    have old : ∀ r, res' = some r → (r = rule) ∨ (res = some r ∧ L r ∧ rule.condition ≠ []) := by
      intro r h
      rcases hx with hx | ⟨hx, hne⟩
      · exact Or.inl (by rw [hx] at h; exact (Option.some.inj h).symm)
      · refine Or.inr ⟨hx ▸ h, ?_, hne⟩
        rcases hr r (hx ▸ h) with h' | h'
        · exact h'
        · exact absurd (h'.2 rule (by simp)) hne
    split
    · rename_i hcond
      simp only [Bool.and_eq_true, Bool.not_eq_true', List.contains_eq_mem, decide_eq_false_iff_not] at hcond
      refine ends_pure fun r h => ?_
      rcases old r h with rfl | ⟨h1, h2, _⟩
      · exact ⟨Or.inl (by simp), Or.inl hcond.2⟩
      · exact ⟨Or.inr h1, Or.inr h2⟩
    · have ih := loop_ends (used := used) (values := values) (L := L) rules res' b' (fun r h => hc r (List.mem_cons_of_mem _ h))
        (fun pre r post h => hg (rule :: pre) r post (by rw [h]; rfl)) ?_
      · intro w hw
        obtain ⟨h1, h2⟩ := ih w hw
        refine ⟨h1, fun w' y hy => ⟨(h2 w' y hy).1, fun r h => ?_⟩⟩
        obtain ⟨h3, h4⟩ := (h2 w' y hy).2 r h
        refine ⟨?_, h4⟩
        rcases h3 with h3 | h3
        · exact Or.inl (List.mem_cons_of_mem _ h3)
        · rcases old r h3 with rfl | ⟨h5, _, _⟩
          · exact Or.inl (by simp)
          · exact Or.inr h5
      · intro r h
        rcases old r h with rfl | ⟨_, h2, _⟩
        · exact hg [] r rules rfl
        · exact Or.inl h2

/-- How many hashes of `hs` have not been used. -/
private def unused (hs used : List Nat) : Nat := (hs.filter fun h => !used.contains h).length

private theorem unused_le {hs used used' : List Nat} (h : ∀ x ∈ used, x ∈ used') : unused hs used' ≤ unused hs used := by
  unfold unused
  induction hs with
  | nil => simp
  | cons a hs ih =>
    simp only [List.filter_cons, List.contains_eq_mem]
    by_cases h1 : a ∈ used
    · simpa [h1, h a h1] using ih
    · by_cases h2 : a ∈ used'
      · simpa [h1, h2] using Nat.le_succ_of_le ih
      · simpa [h1, h2] using ih

private theorem unused_lt {hs used : List Nat} {x : Nat} (h1 : x ∈ hs) (h2 : x ∉ used) : unused hs (used ++ [x]) < unused hs used := by
  unfold unused
  induction hs with
  | nil => cases h1
  | cons a hs ih =>
    have le : unused hs (used ++ [x]) ≤ unused hs used := unused_le fun y hy => by simp [hy]
    unfold unused at le
    simp only [List.filter_cons, List.contains_eq_mem]
    simp only [List.contains_eq_mem] at ih le
    by_cases ha : a = x
    · subst ha
      simpa [h2] using Nat.lt_succ_of_le le
    · have hx : x ∈ hs := by simpa [Ne.symm ha] using h1
      have := ih hx
      by_cases hb : a ∈ used
      · simpa [hb] using this
      · simpa [hb, ha] using this

private theorem words_ends {I : W → Prop} {node : List Nat → Str → List Value → Bool → M W (List Nat × Value)} {rule : WRule} {b : Binding}
    {used0 : List Nat} (hn : ∀ used p values opt, (∀ x ∈ used0, x ∈ used) → rule.Needs p values.length →
      Ends I (node used p values opt) fun x => ∀ y ∈ used, y ∈ x.1) :
    ∀ (cs : List Constituent) (used : List Nat), (∀ c ∈ cs, c ∈ rule.cons) → (∀ x ∈ used0, x ∈ used) →
      Ends I (genWords node rule b cs used) fun x => ∀ y ∈ used, y ∈ x.1
  | [], used, _, _ => ends_pure fun _ h => h
  | c :: cs, used, hc, hu => by
    unfold genWords
    refine ends_bind (P := fun x => ∀ y ∈ used, y ∈ x.1) ?_ fun x hx => ?_
    · unfold genConsequent
      split
      · exact ends_pure fun _ h => h
      rename_i hw
      split
      · exact ends_bind (P := fun _ => True) (ends_lift _ fun _ => trivial) fun _ _ => ends_pure fun _ h => h
      rename_i h1
      split
      · exact ends_bind (P := fun _ => True) (ends_lift _ fun _ => trivial) fun _ _ => ends_pure fun _ h => h
      rename_i h2
      split
      · exact ends_bind (P := fun _ => True) (ends_lift _ fun _ => trivial) fun _ _ => ends_pure fun _ h => h
      rename_i h3
      refine hn used c.predicate _ c.optional hu ⟨?_, ?_, ?_, c, hc c (by simp), hw, rfl, by simp [consequentValues]⟩
      · exact fun e => h1 e
      · exact fun e => h2 e
      · exact fun e => h3 e
    · refine ends_bind (words_ends hn cs x.1 (fun c h => hc c (List.mem_cons_of_mem _ h)) fun y hy => hx y (hu y hy)) fun z hz => ?_
      exact ends_pure fun y hy => hz y (hx y hy)

private theorem node_ends {api : SolverApi W} {g : Grammar WriteSem} {I : W → Prop} {rank : Str → Nat → Nat} {R : Nat} {hs : List Nat}
    (hg : Grounded g rank) (hR : ∀ p k, rank p k ≤ R) (hc : ConditionsReturn api g I) (hh : ∀ cat k, ∀ r ∈ g.findRules cat k, r.hash ∈ hs) :
    ∀ (n : Nat) (used : List Nat) (cat : Str) (values : List Value) (opt : Bool), unused hs used * (R + 1) + rank cat values.length < n →
      Ends I (genNode api g n used cat values opt) fun x => ∀ y ∈ used, y ∈ x.1
  | 0, _, _, _, _, h => absurd h (Nat.not_lt_zero _)
  | n + 1, used, cat, values, opt, hlt => by
    unfold genNode
    refine ends_bind (loop_ends (L := Lower rank cat values.length) (g.findRules cat values.length) none [] (hc cat values.length)
      (hg cat values.length) (fun r h => by cases h)) fun x hx => ?_
    obtain ⟨res, b⟩ := x
    cases res with
    | none =>
      simp only
      split
      · exact ends_throw
      · exact ends_pure fun _ h => h
    | some rule =>
      obtain ⟨hmem, hor⟩ := hx rule rfl
      have hmem : rule ∈ g.findRules cat values.length := by simpa using hmem
      simp only
      refine ends_bind (P := fun x => ∀ y ∈ used, y ∈ x.1) ?_ fun x hx => ?_
      · intro w hw
        have := words_ends (I := I) (node := genNode api g n) (rule := rule) (b := b) (used0 := used ++ [rule.hash])
          (fun used' p vs o hu hneed => node_ends hg hR hc hh n used' p vs o ?_) rule.cons (used ++ [rule.hash]) (fun _ h => h) (fun _ h => h) w hw
        · exact ⟨this.1, fun w' y hy => ⟨(this.2 w' y hy).1, fun z hz => (this.2 w' y hy).2 z (by simp [hz])⟩⟩
        · rcases hor with hfresh | hlow
          · have h1 : unused hs used' < unused hs used := Nat.lt_of_le_of_lt (unused_le hu) (unused_lt (hh _ _ _ hmem) hfresh)
            have h2 : (unused hs used' + 1) * (R + 1) ≤ unused hs used * (R + 1) := Nat.mul_le_mul_right _ h1
            have h3 := hR p vs.length
            rw [Nat.add_mul] at h2
            omega
          · have h1 : unused hs used' ≤ unused hs used := unused_le fun y hy => hu y (by simp [hy])
            have h2 : unused hs used' * (R + 1) ≤ unused hs used * (R + 1) := Nat.mul_le_mul_right _ h1
            have h3 := hlow p vs.length hneed
            omega
      · exact ends_bind (P := fun _ => True) (ends_lift _ fun _ => trivial) fun _ _ => ends_pure fun y hy => hx y hy

/-! ## C101 -/

/-- **C101** Generating output returns when the grammar is grounded and the solver returns on the conditions. The depth to which it calls itself is less than
the number of rules, plus one, times the number of ranks. -/
theorem C101_returns {api : SolverApi W} {g : Grammar WriteSem} {I : W → Prop} {rank : Str → Nat → Nat} {R : Nat} {hs : List Nat}
    (hg : Grounded g rank) (hR : ∀ p k, rank p k ≤ R) (hc : ConditionsReturn api g I) (hh : ∀ cat k, ∀ r ∈ g.findRules cat k, r.hash ∈ hs)
    (l : Lens W SimpleStore) {n : Nat} (hn : (hs.length + 1) * (R + 1) ≤ n) {w : W} (hw : I w) : generateOutput api g l n w ≠ .oof := by
  have h := node_ends hg hR hc hh n [] ['s'] [] false ?_ w hw
  · unfold generateOutput
    rw [M.bind_run]
    cases hr : genNode api g n [] ['s'] [] false w with
    | ok w' a => simp [clearBuffer, M.bind_run]
    | err w' e => simp
    | oof => exact absurd hr h.1
  · have h1 : unused hs [] ≤ hs.length := List.length_filter_le _ _
    have h2 : unused hs [] * (R + 1) ≤ hs.length * (R + 1) := Nat.mul_le_mul_right _ h1
    have h3 := hR ['s'] ([] : List Value).length
    rw [Nat.add_mul] at hn
    omega

/-! ## Conditions about the output buffer -/

/-- Every relation for the predicate returns, and does not leave the kind of worlds. -/
def PredicateReturns (ms : List (Module W)) (I : W → Prop) (p : String) : Prop :=
  ∀ w, I w → ∀ r ∈ findRelations ms w p, ∀ values ctx v, I v →
    r.query values ctx v ≠ .oof ∧ ∀ v' o, r.query values ctx v = .ok v' o → I v'

private theorem relations_ends {api : SolverApi W} {I : W → Prop} {multiple : Bool} {args : List Value} {b : Binding} {db : List Value} :
    ∀ (rs : List (Relation W)) (acc : List (List Value)),
      (∀ r ∈ rs, ∀ values ctx v, I v → r.query values ctx v ≠ .oof ∧ ∀ v' o, r.query values ctx v = .ok v' o → I v') →
      Ends I (queryRelations api multiple args b db rs acc) fun _ => True
  | [], _, _ => ends_pure trivial
  | r :: rs, acc, h => by
    unfold queryRelations
    refine ends_bind (P := fun _ => True) (fun w hw => ?_) fun o _ => ?_
    · obtain ⟨h1, h2⟩ := h r (by simp) db { predicate := r.predicate, columns := r.columns, arguments := args, binding := b, solver := api } w hw
      exact ⟨h1, fun w' o ho => ⟨h2 w' o ho, trivial⟩⟩
    · have ih := fun acc => relations_ends (api := api) (multiple := multiple) (args := args) (b := b) (db := db) rs acc fun r hr => h r (List.mem_cons_of_mem _ hr)
      cases o with
      | iter single n =>
        simp only
        split
        · exact ends_throw
        · exact ends_pure trivial
      | rows rows => exact ih _

private theorem single_ends {api : SolverApi W} {ms : List (Module W)} {I : W → Prop} {p : String} {args : List Value} (hp : p ≠ "$disjunction")
    (h : PredicateReturns ms I p) (b : Binding) : Ends I (solveSingle api ms (.tuple (.str p :: args)) b) fun _ => True := by
  show Ends I (solveSingle.go api ms b p args) _
  unfold solveSingle.go
  rw [if_neg hp]
  refine ends_bind (P := fun _ => True) ?_ fun o _ => ?_
  · unfold findRelationValues
    refine ends_bind (P := fun rels => ∀ r ∈ rels, ∀ values ctx v, I v → r.query values ctx v ≠ .oof ∧ ∀ v' o, r.query values ctx v = .ok v' o → I v')
      (fun w hw => ⟨by simp, fun w' a ha => ?_⟩) fun rels hr => ?_
    · simp only [M.gets_run, Res.ok.injEq] at ha
      obtain ⟨rfl, rfl⟩ := ha
      exact ⟨hw, h w hw⟩
    · cases rels with
      | nil => exact ends_throw
      | cons r rs => exact relations_ends (r :: rs) [] hr
  · cases o with
    | iter single n => exact ends_pure trivial
    | rows rows => cases rows with
      | nil => exact ends_pure trivial
      | cons r rs =>
        simp only [resultsOf]
        split
        · exact ends_throw
        · exact ends_lift _ fun _ => trivial

private theorem collect_ends {I : W → Prop} {f : Binding → M W SolOut} (hf : ∀ b, Ends I (f b) fun _ => True) : ∀ (bs acc : List Binding),
    Ends I (collect f bs acc) fun _ => True
  | [], _ => ends_pure trivial
  | b :: bs, acc => by
    unfold collect
    refine ends_bind (hf b) fun o _ => ?_
    cases o with
    | rows rs => exact collect_ends hf bs _
    | iter x n => cases n with
      | zero => exact collect_ends hf bs _
      | succ n => exact ends_throw

private theorem atoms_ends {api : SolverApi W} {ms : List (Module W)} {I : W → Prop} : ∀ (atoms : List Value),
    (∀ a ∈ atoms, ∃ p args, a = .tuple (.str p :: args) ∧ p ≠ "$disjunction" ∧ PredicateReturns ms I p) → ∀ b,
    Ends I (solveAtoms api ms atoms b) fun _ => True
  | [], _, b => ends_pure trivial
  | [a], h, b => by
    obtain ⟨p, args, rfl, h1, h2⟩ := h a (by simp)
    exact single_ends h1 h2 b
  | a :: a2 :: rest, h, b => by
    obtain ⟨p, args, rfl, h1, h2⟩ := h a (by simp)
    unfold solveAtoms
    refine ends_bind (single_ends h1 h2 b) fun o _ => ?_
    cases o with
    | rows rs => exact collect_ends (atoms_ends (a2 :: rest) fun x hx => h x (List.mem_cons_of_mem _ hx)) rs []
    | iter x n => cases n with
      | zero => exact ends_pure trivial
      | succ n => exact ends_throw

/-- **C101** Conditions that are about relations which return, do return. -/
theorem C101_conditions {ms : List (Module W)} {g : Grammar WriteSem} {I : W → Prop} (n : Nat)
    (h : ∀ cat k, ∀ r ∈ g.findRules cat k, ∀ a ∈ WRule.condition r, ∃ p args, a = .tuple (.str p :: args) ∧ p ≠ "$disjunction" ∧ PredicateReturns ms I p) :
    ConditionsReturn (solverAt ms (n + 1)) g I := by
  intro cat k r hr _ b w hw
  have := atoms_ends (api := solverAt ms n) (WRule.condition r) (h cat k r hr) b w hw
  exact ⟨this.1, fun w' o ho => (this.2 w' o ho).1⟩

/-- **C101** Output is generated, whatever is in the output buffer, when the conditions of a grounded grammar are about the buffer. -/
theorem C101_output {ms : List (Module W)} {l : Lens W SimpleStore} {w0 : W} (hm : StoresIn ms l outputRelations w0) {g : Grammar WriteSem}
    (hc : ∀ cat k, ∀ r ∈ g.findRules cat k, ∀ a ∈ WRule.condition r, ∃ p args, a = .tuple (.str p :: args) ∧ outputRelations.has p = true)
    {rank : Str → Nat → Nat} {R : Nat} {hs : List Nat} (hg : Grounded g rank) (hR : ∀ p k, rank p k ≤ R)
    (hh : ∀ cat k, ∀ r ∈ g.findRules cat k, r.hash ∈ hs) {n : Nat} (hn : (hs.length + 1) * (R + 1) ≤ n) (m : Nat) (buffer : SimpleStore) :
    generateOutput (solverAt (modelOf ms) (m + 1)) g l n (l.put buffer w0) ≠ .oof := by
  refine C101_returns (I := fun w => ∃ s, w = l.put s w0) hg hR (C101_conditions m fun cat k r hr a ha => ?_) hh l hn ⟨buffer, rfl⟩
  obtain ⟨p, args, rfl, hp⟩ := hc cat k r hr a ha
  refine ⟨p, args, rfl, fun e => by subst e; exact absurd hp (by decide), ?_⟩
  rintro w ⟨s, rfl⟩ r hr values ctx v hv
  obtain ⟨cs, hcs⟩ : ∃ cs, outputRelations.get p = some cs := by
    rw [Dict.has] at hp
    exact Option.isSome_iff_exists.1 hp
  rw [hm.rels s p cs hcs, List.mem_singleton] at hr
  subst hr
  simp only [memoryRelation, memoryQuery, M.bind_run, M.gets_run]
  cases (l.get v).select p cs values with
  | error e => exact ⟨by simp [M.lift], fun v' o h => by simp [M.lift] at h⟩
  | ok rows =>
    refine ⟨by simp [M.lift, M.pure], fun v' o h => ?_⟩
    simp only [M.lift, M.pure, M.pure_run, Res.ok.injEq] at h
    exact h.1 ▸ hv

/-! ## Limits -/

namespace GenEx

/-- `s() -> 'x' s()`. -/
def again : WRule := ⟨⟨['s'], [], .relation, false, false⟩, [⟨['x'], [], .word, false, false⟩, ⟨['s'], [], .relation, false, false⟩], .user ⟨[], none, none⟩, 0, 1⟩

/-- `s() -> 'y'`, with a condition that does not hold. -/
def never : WRule := ⟨⟨['s'], [], .relation, false, false⟩, [⟨['y'], [], .word, false, false⟩], .user ⟨[.tuple [.str "no"]], none, none⟩, 0, 2⟩

/-- `s() -> 'e'`. -/
def stop : WRule := ⟨⟨['s'], [], .relation, false, false⟩, [⟨['e'], [], .word, false, false⟩], .user ⟨[], none, none⟩, 0, 3⟩

private theorem again_forever {g : Grammar WriteSem} (h : ∀ used, 2 ∉ used → findRule api g used ['s'] [] () = .ok () (some again, [])) :
    ∀ n used, 2 ∉ used → genNode api g n used ['s'] [] false () = .oof
  | 0, _, _ => rfl
  | n + 1, used, h2 => by
    unfold genNode
    rw [M.bind_run, h used h2]
    simp only [M.bind_run]
    have : genWords (genNode api g n) again [] again.cons (used ++ [again.hash]) () = .oof := by
      have ih := again_forever h n (used ++ [again.hash]) (by simp [h2, again])
      simp only [again, genWords, genConsequent, categoryValue, categoryText, categoryFormat, consequentValues, List.map_nil, M.bind_run] at ih ⊢
      simp [ih]
    rw [this]

end GenEx

/-- Limit of C101: a category that has only a rule that calls the category again does not return; the list of used rules does not prevent it, since a
used rule is taken when there is no other. -/
theorem C101_forever (n : Nat) (l : Lens Unit SimpleStore) : generateOutput GenEx.api [(['s'], [(0, [GenEx.again])])] l n () = .oof := by
  unfold generateOutput
  rw [M.bind_run, GenEx.again_forever (fun used _ => ?_) n [] (by simp)]
  simp [findRule, Grammar.findRules, Assoc.get, findRuleLoop, tryWriteRule, GenEx.again, WRule.parts, M.bind_run, anteBinding]

/-- Limit of C101: a category with a rule that ends does not return either, when a rule whose condition fails stands between the rule that calls the
category again and the rule that ends: the search stops at the rule with the condition, and the used rule is taken again. -/
theorem C101_sticky (n : Nat) (l : Lens Unit SimpleStore) :
    generateOutput GenEx.api [(['s'], [(0, [GenEx.again, GenEx.never, GenEx.stop])])] l n () = .oof := by
  unfold generateOutput
  rw [M.bind_run, GenEx.again_forever (fun used h2 => ?_) n [] (by simp)]
  by_cases h : 1 ∈ used <;>
    simp [findRule, Grammar.findRules, Assoc.get, findRuleLoop, tryWriteRule, GenEx.again, GenEx.never, WRule.parts, M.bind_run, anteBinding, GenEx.api, h, h2]

/-! ## Example -/

namespace ReturnsEx

/-- `s() -> 'the' more()`. -/
def start : WRule := ⟨⟨['s'], [], .relation, false, false⟩, [⟨['t', 'h', 'e'], [], .word, false, false⟩, ⟨['m'], [], .relation, false, false⟩], .user ⟨[], none, none⟩, 0, 1⟩

/-- `more() -> 'x' more()`, if the type of the output is a list. -/
def more : WRule := ⟨⟨['m'], [], .relation, false, false⟩, [⟨['x'], [], .word, false, false⟩, ⟨['m'], [], .relation, false, false⟩],
  .user ⟨[.tuple [.str "output_type", .str "list"]], none, none⟩, 0, 2⟩

/-- `more() -> 'y' more()`. -/
def more' : WRule := ⟨⟨['m'], [], .relation, false, false⟩, [⟨['y'], [], .word, false, false⟩, ⟨['m'], [], .relation, false, false⟩], .user ⟨[], none, none⟩, 0, 3⟩

/-- `more() -> 'e'`. -/
def done : WRule := ⟨⟨['m'], [], .relation, false, false⟩, [⟨['e'], [], .word, false, false⟩], .user ⟨[], none, none⟩, 0, 4⟩

/-- Two categories; the second calls itself. -/
def grammar : Grammar WriteSem := [(['s'], [(0, [start])]), (['m'], [(0, [more, more', done])])]

/-- The start category is above the other one. -/
def rank (p : Str) (_ : Nat) : Nat := if p = ['s'] then 1 else 0

theorem rules (cat : Str) (k : Nat) :
    cat = ['s'] ∧ grammar.findRules cat k = [start] ∨ grammar.findRules cat k = [more, more', done] ∨ grammar.findRules cat k = [] := by
  by_cases h1 : cat = ['s']
  · by_cases h2 : k = 0
    · subst h1 h2; exact .inl ⟨rfl, rfl⟩
    · subst h1; right; right; simp [grammar, Grammar.findRules, Assoc.get, Ne.symm h2]
  · by_cases h3 : cat = ['m']
    · by_cases h2 : k = 0
      · subst h3 h2; exact .inr (.inl rfl)
      · subst h3; right; right; simp [grammar, Grammar.findRules, Assoc.get, Ne.symm h2]
    · right; right; simp [grammar, Grammar.findRules, Assoc.get, Ne.symm h1, Ne.symm h3]

theorem grounded : Grounded grammar rank := by
  intro cat k pre r post h
  rcases rules cat k with ⟨rfl, h'⟩ | h' | h'
  · rw [h'] at h
    have : pre = [] ∧ r = start ∧ post = [] := by
      cases pre with
      | nil => simp only [List.nil_append, List.cons.injEq] at h; exact ⟨rfl, h.1.symm, h.2.symm⟩
      | cons a as => simp at h
    obtain ⟨rfl, rfl, rfl⟩ := this
    left
    rintro p m ⟨-, -, -, c, hc, hw, rfl, -⟩
    simp only [start, List.mem_cons, List.not_mem_nil, or_false] at hc
    rcases hc with rfl | rfl
    · exact absurd rfl hw
    · simp [rank]
  · rw [h'] at h
    rcases pre with _ | ⟨a, _ | ⟨b, _ | ⟨c, pre⟩⟩⟩
    · simp only [List.nil_append, List.cons.injEq] at h
      obtain ⟨rfl, rfl⟩ := h
      exact .inr ⟨by simp, by simp [more', done, WRule.condition]⟩
    · simp only [List.cons_append, List.nil_append, List.cons.injEq] at h
      obtain ⟨-, rfl, rfl⟩ := h
      exact .inr ⟨by simp, by simp [done, WRule.condition]⟩
    · simp only [List.cons_append, List.nil_append, List.cons.injEq] at h
      obtain ⟨-, -, rfl, rfl⟩ := h
      left
      rintro p m ⟨-, -, -, c, hc, hw, rfl, -⟩
      simp only [done, List.mem_singleton] at hc
      subst hc
      exact absurd rfl hw
    · simp at h
  · rw [h'] at h; simp at h

theorem stores (w : SimpleStore) : StoresIn [outputBuffer (Lens.id _)] (Lens.id _) outputRelations w where
  store := by intro w m hm; simp only [List.mem_singleton] at hm; subst hm; rfl
  rels := by
    intro s p cs h
    have hp : p ∈ outputRelations.map Prod.fst := List.mem_map.2 ⟨_, Dict.mem_of_get h, rfl⟩
    simp only [outputRelations, List.map_cons, List.map_nil, List.mem_cons, List.not_mem_nil, or_false] at hp
    rcases hp with rfl | rfl | rfl | rfl | rfl | rfl | rfl <;> (cases h; rfl)

/-- `C101_output` applies to the grammar, whatever the output buffer contains. -/
example (buffer : SimpleStore) : generateOutput (solverAt (modelOf [outputBuffer (Lens.id _)]) 1) grammar (Lens.id _) 10 buffer ≠ .oof :=
  C101_output (stores SimpleStore.clear) (fun cat k r hr a ha => by
    rcases rules cat k with ⟨-, h⟩ | h | h <;> rw [h] at hr <;> simp only [List.mem_cons, List.not_mem_nil, or_false] at hr
    · subst hr; simp [start, WRule.condition] at ha
    · rcases hr with rfl | rfl | rfl
      · simp only [more, WRule.condition, List.mem_singleton] at ha
        exact ⟨_, _, ha, rfl⟩
      · simp [more', WRule.condition] at ha
      · simp [done, WRule.condition] at ha)
    (rank := rank) (R := 1) (hs := [1, 2, 3, 4]) grounded (by intro p _; simp only [rank]; split <;> omega)
    (fun cat k r hr => by
      rcases rules cat k with ⟨-, h⟩ | h | h <;> rw [h] at hr <;> simp only [List.mem_cons, List.not_mem_nil, or_false] at hr
      · subst hr; simp [start]
      · rcases hr with rfl | rfl | rfl <;> simp [more, more', done])
    (by simp) 0 buffer

/-- Each rule of the second category is used once before the last one ends the text. -/
example : generateOutput (solverAt (modelOf [outputBuffer (Lens.id _)]) 1) grammar (Lens.id _) 10
    [("output_type", [[("type", .str "list")]])] = .ok SimpleStore.clear (.str "thexye") := by rfl

end ReturnsEx

end Verif

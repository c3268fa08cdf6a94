import Verif.RuleStrata
import Verif.Props.FirstOrder

/-!
# C78: rules whose bodies contain negation, quantifiers, numbers and alternatives

What the rules say is in `Verif.RuleForms`, what the parts of their bodies mean in `Verif.FirstOrder`.
-/

namespace Verif

theorem form_toRule_pred (r : FormRule) : r.toRule.pred = some r.pred := rfl

/-- A model with stored rows and such rules: the core module, modules with stored rows, an inference module with the rules `rs`, more modules with
stored rows (`Model.py:10-24`, `InferenceModule.py:17-35`). -/
structure FormKnowledge (W : Type) (ar : String → Option Nat) (calls : Calls) (tables : List (Dict (List (List Value)))) (rs : List FormRule) where
  lens : Lens W InfState
  world : W
  before : List (Module W)
  after : List (Module W)
  dbs : List (Dict (List (List Value)))
  dbs' : List (Dict (List (List Value)))
  split : tables = dbs ++ dbs'
  facts : FactModules ar world before dbs
  facts' : FactModules ar world after dbs'
  ok : FormProgramOk W ar calls tables rs
  inserted : insertAll (rs.map FormRule.toRule) InfState.init = .ok (lens.get world)

section
variable {W : Type} {ar : String → Option Nat} {calls : Calls} {tables : List (Dict (List (List Value)))} {rs : List FormRule} {I : Interpretation}

/-- All modules but the core module (`Model.py:10-24`). -/
def FormKnowledge.others (K : FormKnowledge W ar calls tables rs) : List (Module W) := K.before ++ inferenceModule K.lens :: K.after

/-- Solving a query (`Solver.py:22-31`) with nesting bounded by `n`. -/
def FormKnowledge.ask (K : FormKnowledge W ar calls tables rs) (n : Nat) (q : List Form) (b : Binding) : Res W SolOut :=
  (solverAt (modelOf K.others) n).solve (.list (formValues q)) b K.world

theorem FormKnowledge.holds (K : FormKnowledge W ar calls tables rs) : HoldsForms (modelOf K.others) K.lens.get K.world ar tables rs := by
  obtain ⟨l, w, ms, ms', dbs, dbs', hsplit, hf, hf', hok, hins⟩ := K
  subst hsplit
  simp only [FormKnowledge.others]
  have hcore : ∀ p k, ar p = some k → (coreModule W).relations w p = none := by
    intro p k hp
    simp only [coreModule, Option.map_eq_none_iff]
    cases hc : (coreTable W).get p with
    | none => rfl
    | some f => rw [hok.notReserved.2.2 p f hc] at hp; simp at hp
  have hex : ∀ p, (∃ r ∈ rs.map FormRule.toRule, r.pred = some p) ↔ ∃ r ∈ rs, r.pred = p := by
    intro p
    constructor
    · rintro ⟨r, hr, e⟩
      obtain ⟨r', hr', rfl⟩ := List.mem_map.1 hr
      exact ⟨r', hr', by simpa [form_toRule_pred] using e⟩
    · rintro ⟨r, hr, e⟩
      exact ⟨r.toRule, List.mem_map.2 ⟨r, hr, rfl⟩, by simp [form_toRule_pred, e]⟩
  have hmem : ∀ p k, ar p = some k → ∀ r, r ∈ findRelations (modelOf (ms ++ inferenceModule l :: ms')) w p ↔
      r ∈ findRelations ms w p ∨ ((∃ r ∈ rs, r.pred = p) ∧ r = ruleRelation l.get p) ∨ r ∈ findRelations ms' w p := by
    intro p k hp r
    rw [modelOf, findRelations_cons, hcore p k hp, findRelations_append, findRelations_cons]
    have h2 : (inferenceModule l).relations w p = some r ↔ (∃ r ∈ rs, r.pred = p) ∧ r = ruleRelation l.get p := by
      simp only [inferenceModule]
      rw [(insertAll_rules hins p).2.2]
      by_cases h : ∃ r ∈ rs, r.pred = p
      · rw [if_pos ((hex p).2 h)]
        simp only [Option.map_some, Option.some.injEq, h, true_and, ruleRelation]
        exact eq_comm
      · rw [if_neg (fun hh => h ((hex p).1 hh))]
        have : p ≠ "learn_rule" := by
          rintro rfl; rw [hok.notReserved.2.1] at hp; simp at hp
        simp [InfState.init, Dict.get, h, this.symm]
    rw [h2]; simp
  refine ⟨?_, ?_, ?_, ?_⟩
  · intro p k hp r hr
    rcases (hmem p k hp r).1 hr with h | h | h
    · obtain ⟨db, hdb, x⟩ := (hf.mem hp).1 r h
      exact .inl ⟨db, List.mem_append_left _ hdb, x⟩
    · exact .inr h
    · obtain ⟨db, hdb, x⟩ := (hf'.mem hp).1 r h
      exact .inl ⟨db, List.mem_append_right _ hdb, x⟩
  · intro p k hp db hdb rows hrows
    rcases List.mem_append.1 hdb with hdb | hdb
    · obtain ⟨r, hr, htl⟩ := (hf.mem hp).2 db hdb rows hrows
      exact ⟨r, (hmem p k hp r).2 (.inl hr), htl⟩
    · obtain ⟨r, hr, htl⟩ := (hf'.mem hp).2 db hdb rows hrows
      exact ⟨r, (hmem p k hp r).2 (.inr (.inr hr)), htl⟩
  · intro p k hp he
    exact (hmem p k hp _).2 (.inr (.inl ⟨he, rfl⟩))
  · intro p
    obtain ⟨h1, h2, _⟩ := insertAll_rules hins p
    by_cases h : ∃ r ∈ rs, r.pred = p
    · rw [if_pos h]
      obtain ⟨x, hx⟩ := (Dict.has_iff _ _).1 (h2.2 (.inr ((hex p).2 h)))
      rw [hx] at h1 ⊢
      simp only [Option.getD_some, InfState.init, Dict.get_nil, Option.getD_none, List.nil_append] at h1
      rw [h1, List.filter_map]
      congr 2
      apply List.filter_congr
      intro r _
      simp [Function.comp, form_toRule_pred]
    · rw [if_neg h]
      have : (l.get w).rules.has p = false := by
        cases hh : (l.get w).rules.has p with
        | false => rfl
        | true =>
          rcases h2.1 hh with h3 | h3
          · simp [InfState.init, Dict.has] at h3
          · exact absurd ((hex p).1 h3) h
      exact (Dict.has_false_iff _ _).1 this

/-- **C78** The answers to a query over facts and rules whose bodies contain negation, quantifiers, numbers and alternatives are exactly the ways to
satisfy it, each once, wherever an atom is taken to be true precisely if it is stored or a rule says so. The world is not changed. -/
theorem C78_rules (K : FormKnowledge W ar calls tables rs) (hcore : ∀ p ∈ coreNames, NotDefined K.others K.world p)
    (hI : Supported ar tables rs I) {n : Nat} {q : List Form} {b : Binding} (hq : FormsOk ar q (fun x => b.has x = true))
    (hc : FormsCalled calls q (fun x => b.has x = true)) (hb : PlainB b) {w' : W} {out : SolOut} (h : K.ask n q b = .ok w' out) :
    w' = K.world ∧ ∃ bs, out = .rows bs ∧
      (∀ b' ∈ bs, (∀ x v, b'.get x = some v → Plain v) ∧ (∀ x v, b.get x = some v → b'.get x = some v) ∧
        (∀ x, b'.has x = true ↔ b.has x = true ∨ x ∈ formBinds q) ∧
        ∀ σ : Assignment, (∀ x, Plain (σ x)) → (∀ x v, b'.get x = some v → σ x = v) → SatAll I.facts q (fun x => b.has x = true) σ) ∧
      (∀ σ : Assignment, (∀ x, Plain (σ x)) → (∀ x v, b.get x = some v → σ x = v) →
        SatAll I.facts q (fun x => b.has x = true) σ → ∃ b' ∈ bs, ∀ x v, b'.get x = some v → σ x = v) ∧
      bs.Pairwise fun b1 b2 => ¬ ∀ x, b1.get x = b2.get x := by
  obtain ⟨h1, bs, h2, h3⟩ := forms_exact (base_form K.ok K.holds hI hcore) n q b hq hc hb _ _ h
  exact ⟨h1, bs, h2, h3.sound, h3.complete, h3.noDup⟩

/-- **C78** (returning) If the predicates can be ranked such that the body of each rule is not deeper than the rank of its head, then the query
returns, with answers or with an exception, at every depth above that of the query. -/
theorem C78_returns (K : FormKnowledge W ar calls tables rs) (hcore : ∀ p ∈ coreNames, NotDefined K.others K.world p)
    (hI : Supported ar tables rs I) {rank : String → Nat} (hrank : ∀ r ∈ rs, formsDepth rank r.body ≤ rank r.pred)
    {n : Nat} {q : List Form} {b : Binding} (hq : FormsOk ar q (fun x => b.has x = true)) (hc : FormsCalled calls q (fun x => b.has x = true))
    (hb : PlainB b) (hn : formsDepth rank q ≤ n) :
    (∃ bs, K.ask n q b = .ok K.world (.rows bs)) ∨ ∃ w' e, K.ask n q b = .err w' e := by
  have h := forms_fin (base_form K.ok K.holds hI hcore) (return_form K.ok K.holds hI hcore hrank) n q b hq hc hb hn
  cases hr : K.ask n q b with
  | oof => exact absurd hr h
  | err w' e => exact .inr ⟨w', e, rfl⟩
  | ok w' o =>
    obtain ⟨rfl, bs, rfl, _⟩ := C78_rules K hcore hI hq hc hb hr
    exact .inl ⟨bs, rfl⟩

/-- **C78** (what the rules say exists) Rules that are not recursive through negation, quantifiers, numbers and alternatives have an interpretation
in which an atom is true precisely if it is stored or a rule says so. -/
theorem C78_stratified {level : String → Nat} (hs : Stratified rs level) : ∃ I, Supported ar tables rs I := ⟨_, stratified_supported hs⟩

/-- **C78** (agreement) Queries that return cannot tell two such interpretations apart. -/
theorem C78_agree (K : FormKnowledge W ar calls tables rs) (hcore : ∀ p ∈ coreNames, NotDefined K.others K.world p)
    {I J : Interpretation} (hI : Supported ar tables rs I) (hJ : Supported ar tables rs J) {n : Nat} {q : List Form} {b : Binding}
    (hq : FormsOk ar q (fun x => b.has x = true)) (hc : FormsCalled calls q (fun x => b.has x = true)) (hb : PlainB b) {w' : W} {out : SolOut}
    (h : K.ask n q b = .ok w' out) {σ : Assignment} (hσ : ∀ x, Plain (σ x)) (ha : ∀ x v, b.get x = some v → σ x = v) :
    SatAll I.facts q (fun x => b.has x = true) σ ↔ SatAll J.facts q (fun x => b.has x = true) σ := by
  have key : ∀ {I J : Interpretation}, Supported ar tables rs I → Supported ar tables rs J →
      SatAll I.facts q (fun x => b.has x = true) σ → SatAll J.facts q (fun x => b.has x = true) σ := by
    intro I J hI hJ hs
    obtain ⟨_, bs, rfl, _, h2, _⟩ := C78_rules K hcore hI hq hc hb h
    obtain ⟨_, bs', e, h3, _, _⟩ := C78_rules K hcore hJ hq hc hb h
    cases e
    obtain ⟨b', hb', hag⟩ := h2 σ hσ ha hs
    exact (h3 b' hb').2.2.2 σ hσ hag
  exact ⟨key hI hJ, key hJ hI⟩

/-- **C78** (rules without these) For rules whose bodies are atoms, what follows from the rules is such an interpretation. -/
theorem C78_horn {rs : List HornRule} : Supported ar tables (rs.map HornRule.toForm) fun p vals => Derivable (program tables rs) p vals :=
  horn_supported

end

namespace Ex

/-- Stored: what is just left of what, and how many parts things have, or usually have. -/
def desk : Dict (List (List Value)) :=
  [("just_left_of", [[.str "pad", .str "book"], [.str "book", .str "phone"]]),
   ("part_of_n", [[.str "finger", .str "hand", .num 4]]),
   ("usual_n", [[.str "finger", .str "hand", .num 5], [.str "hand", .str "boy", .num 2]])]

/-- Rules in the way of `tests/integration/sir/inferences.pl:6,27-61`. -/
def deskRules : List FormRule :=
  [⟨"left_of", [.var "A", .var "B"], [.atom "just_left_of" [.var "A", .var "B"]], []⟩,
   ⟨"left_of", [.var "A", .var "B"], [.atom "just_left_of" [.var "A", .var "C"], .atom "left_of" [.var "C", .var "B"]], []⟩,
   ⟨"somewhere_left_of", [.var "A", .var "B"], [.atom "left_of" [.var "A", .var "B"], .neg [.atom "just_left_of" [.var "A", .var "B"]]], ["A", "B"]⟩,
   ⟨"check_just_left_of", [.var "A", .var "B"],
     [.neg [.atom "just_left_of" [.var "A", .var "C"]], .neg [.atom "left_of" [.var "B", .var "A"]]], ["A", "B"]⟩,
   ⟨"check_left_of", [.var "A", .var "B"], [.neg [.atom "left_of" [.var "B", .var "A"]]], ["A", "B"]⟩,
   ⟨"part_of_number", [.var "A", .var "B", .var "N"], [.either [[.atom "part_of_n" [.var "A", .var "B", .var "N"]],
     [.atom "usual_n" [.var "A", .var "B", .var "N"]]]], ["A", "B"]⟩,
   ⟨"full_isa", [.var "A", .var "A"], [], []⟩]

def deskAr : String → Option Nat := fun p =>
  if p ∈ ["just_left_of", "left_of", "somewhere_left_of", "check_just_left_of", "check_left_of", "full_isa"] then some 2
  else if p ∈ ["part_of_n", "usual_n", "part_of_number"] then some 3 else none

/-- How the predicates may be asked. -/
def deskCalls : Calls := fun p κ =>
  if p ∈ ["check_just_left_of", "check_left_of"] then κ 0 ∧ κ 1
  else if p = "part_of_number" then κ 0 ∧ κ 1 ∧ ¬ κ 2
  else if p = "full_isa" then κ 0 ∨ κ 1 else True

theorem known_two {p : String} {a c : String} {body : List Form} {given : List String} {κ : Nat → Prop} {x : String} :
    FormRule.known ⟨p, [.var a, .var c], body, given⟩ κ x ↔ (x = a ∧ κ 0) ∨ (x = c ∧ κ 1) := by
  simp only [FormRule.known]
  constructor
  · rintro ⟨i, h, k⟩
    match i with
    | 0 => simp at h; exact .inl ⟨h.symm, k⟩
    | 1 => simp at h; exact .inr ⟨h.symm, k⟩
    | i + 2 => simp at h
  · rintro (⟨rfl, k⟩ | ⟨rfl, k⟩)
    · exact ⟨0, by simp, k⟩
    · exact ⟨1, by simp, k⟩

theorem known_three {p : String} {a c e : String} {body : List Form} {given : List String} {κ : Nat → Prop} {x : String} :
    FormRule.known ⟨p, [.var a, .var c, .var e], body, given⟩ κ x ↔ (x = a ∧ κ 0) ∨ (x = c ∧ κ 1) ∨ (x = e ∧ κ 2) := by
  simp only [FormRule.known]
  constructor
  · rintro ⟨i, h, k⟩
    match i with
    | 0 => simp at h; exact .inl ⟨h.symm, k⟩
    | 1 => simp at h; exact .inr (.inl ⟨h.symm, k⟩)
    | 2 => simp at h; exact .inr (.inr ⟨h.symm, k⟩)
    | i + 3 => simp at h
  · rintro (⟨rfl, k⟩ | ⟨rfl, k⟩ | ⟨rfl, k⟩)
    · exact ⟨0, by simp, k⟩
    · exact ⟨1, by simp, k⟩
    · exact ⟨2, by simp, k⟩

theorem desk_rules : ∀ r ∈ deskRules, FormRuleOk deskAr deskCalls r := by
  intro r hr
  simp only [deskRules, List.mem_cons, List.not_mem_nil, or_false] at hr
  rcases hr with rfl | rfl | rfl | rfl | rfl | rfl | rfl
  all_goals
    refine ⟨rfl, by simp [ArgsOk, Value.isVar], fun κ h => ?_, fun κ h => ?_, fun κ h => ?_, fun κ h x hx => ?_⟩
  all_goals
    simp only [deskCalls] at h
    try simp only [List.mem_cons, List.not_mem_nil, or_false, Value.var.injEq] at hx
    try simp [FormsOk, Form.Ok, AltsOk, deskAr, ArgsOk, Value.isVar, Known.more, formBinds, altBinds, Form.binds, argVars, FormsCalled, Form.Called, AltsCalled, deskCalls,
      FormsSame, Form.inner, formVars, altVars, Form.vars, known_two, known_three]
  all_goals grind

theorem desk_ok : FormProgramOk InfState deskAr deskCalls [desk] deskRules := by
  refine ⟨⟨by decide, by decide, ?_⟩, ?_, ?_, desk_rules⟩
  · intro p f h
    have hne : p ∉ ["just_left_of", "left_of", "somewhere_left_of", "check_just_left_of", "check_left_of", "full_isa"] ∧
        p ∉ ["part_of_n", "usual_n", "part_of_number"] := by
      simp only [List.mem_cons, List.not_mem_nil, or_false]
      constructor <;> rintro h' <;> (repeat' (rcases h' with rfl | h')) <;> simp_all [coreTable, Dict.get]
    simp only [deskAr, if_neg hne.1, if_neg hne.2]
  · intro p k h
    have : p ∈ ["just_left_of", "left_of", "somewhere_left_of", "check_just_left_of", "check_left_of", "full_isa"] ∨
        p ∈ ["part_of_n", "usual_n", "part_of_number"] := by
      simp only [deskAr] at h
      split at h
      · exact .inl (by assumption)
      · split at h
        · exact .inr (by assumption)
        · simp at h
    simp only [List.mem_cons, List.not_mem_nil, or_false] at this
    rcases this with (rfl | rfl | rfl | rfl | rfl | rfl) | rfl | rfl | rfl
    · exact .inl ⟨desk, by simp, by decide⟩
    all_goals first | exact .inl ⟨desk, by simp, by decide⟩ | exact .inr (by simp [deskRules])
  · intro p k h db hdb rows hrows row hrow
    simp only [List.mem_singleton] at hdb
    subst hdb
    simp only [desk, Dict.get] at hrows
    split at hrows
    · rename_i e
      subst e
      simp only [Option.some.injEq] at hrows
      subst hrows
      have hk : k = 2 := by simpa [deskAr] using h.symm
      subst hk
      simp only [List.mem_cons, List.not_mem_nil, or_false] at hrow
      rcases hrow with rfl | rfl <;> simp [Plain, legal, Value.isVar]
    · split at hrows
      · rename_i e
        subst e
        simp only [Option.some.injEq] at hrows
        subst hrows
        have hk : k = 3 := by simpa [deskAr] using h.symm
        subst hk
        simp only [List.mem_cons, List.not_mem_nil, or_false] at hrow
        rcases hrow with rfl <;> simp [Plain, legal, Value.isVar]
      · split at hrows
        · rename_i e
          subst e
          simp only [Option.some.injEq] at hrows
          subst hrows
          have hk : k = 3 := by simpa [deskAr] using h.symm
          subst hk
          simp only [List.mem_cons, List.not_mem_nil, or_false] at hrow
          rcases hrow with rfl | rfl <;> simp [Plain, legal, Value.isVar]
        · simp at hrows

/-- The rules in an inference module. -/
def deskState : InfState :=
  { relations := [("learn_rule", .learnRule), ("left_of", .handleRule), ("somewhere_left_of", .handleRule), ("check_just_left_of", .handleRule),
      ("check_left_of", .handleRule), ("part_of_number", .handleRule), ("full_isa", .handleRule)]
    rules := [("left_of", (deskRules.take 2).map FormRule.toRule), ("somewhere_left_of", ((deskRules.drop 2).take 1).map FormRule.toRule),
      ("check_just_left_of", ((deskRules.drop 3).take 1).map FormRule.toRule), ("check_left_of", ((deskRules.drop 4).take 1).map FormRule.toRule),
      ("part_of_number", ((deskRules.drop 5).take 1).map FormRule.toRule), ("full_isa", ((deskRules.drop 6).take 1).map FormRule.toRule)] }

def deskKB : FormKnowledge InfState deskAr deskCalls [desk] deskRules where
  lens := Lens.id InfState
  world := deskState
  before := [desk].map (tableModule InfState)
  after := [].map (tableModule InfState)
  dbs := [desk]
  dbs' := []
  split := by simp
  facts := tableModules_fact _ _ _
  facts' := tableModules_fact _ _ _
  ok := desk_ok
  inserted := by decide +kernel

theorem desk_core : ∀ p ∈ coreNames, NotDefined deskKB.others deskKB.world p := by
  intro p hp m hm
  have : ∀ p ∈ coreNames, (tableModule InfState desk).relations deskKB.world p = none ∧
      (inferenceModule deskKB.lens).relations deskKB.world p = none := by
    intro p hp
    simp only [coreNames, List.mem_cons, List.not_mem_nil, or_false] at hp
    rcases hp with rfl | rfl | rfl | rfl | rfl | rfl | rfl | rfl | rfl | rfl | rfl | rfl | rfl <;> exact ⟨rfl, rfl⟩
  simp only [FormKnowledge.others, deskKB, List.mem_append, List.mem_cons, List.mem_map, List.not_mem_nil, or_false] at hm
  rcases hm with ⟨db, rfl, rfl⟩ | rfl | ⟨_, hf, _⟩
  · exact (this p hp).1
  · exact (this p hp).2
  · exact hf.elim

/-- Left of its neighbours come before what is checked against them. -/
theorem desk_stratified : Stratified deskRules (fun p => if p ∈ ["just_left_of", "left_of", "part_of_n", "usual_n"] then 0 else 1) := by
  intro r hr
  simp only [deskRules, List.mem_cons, List.not_mem_nil, or_false] at hr
  rcases hr with rfl | rfl | rfl | rfl | rfl | rfl | rfl <;>
    simp [Form.preds, formPreds, altPreds, Form.isAtom]

/-- Which thing is somewhere left of which, could be just left of the pad, and how many parts of which kind are there? -/
def deskQuestion : List Form :=
  [.atom "somewhere_left_of" [.var "X", .var "Y"], .atom "check_just_left_of" [.var "Y", .str "pen"], .atom "full_isa" [.var "Y", .var "Z"],
   .neg [.atom "check_left_of" [.var "Z", .var "X"]], .atom "part_of_number" [.str "finger", .str "hand", .var "N"],
   .atom "part_of_number" [.str "hand", .str "boy", .var "M"]]

theorem deskQuestion_ok : FormsOk deskAr deskQuestion (fun x => Dict.has ([] : Binding) x = true) := by
  simp [deskQuestion, FormsOk, Form.Ok, deskAr, ArgsOk, Value.isVar, Plain, legal]

theorem deskQuestion_called : FormsCalled deskCalls deskQuestion (fun x => Dict.has ([] : Binding) x = true) := by
  simp [deskQuestion, FormsCalled, Form.Called, deskCalls, knownAt, Given, Known.more, Form.binds, argVars, Dict.has, Dict.get]
  have : ∀ s, Plain (.str s) := fun s => ⟨by simp, rfl, rfl⟩
  simp [this]

theorem desk_answers : deskKB.ask 9 deskQuestion [] = .ok deskKB.world (.rows
    [[("X", .str "pad"), ("Y", .str "phone"), ("Z", .str "phone"), ("N", .num 4), ("M", .num 2)]]) := by decide +kernel

/-- There is an interpretation in which the rules hold, and in each there is precisely this answer. -/
example : (∃ I, Supported deskAr [desk] deskRules I) ∧ ∀ I, Supported deskAr [desk] deskRules I → ∀ σ : Assignment, (∀ x, Plain (σ x)) →
    SatAll I.facts deskQuestion (fun x => Dict.has ([] : Binding) x = true) σ → σ "X" = .str "pad" ∧ σ "Y" = .str "phone" ∧ σ "N" = .num 4 ∧ σ "M" = .num 2 := by
  refine ⟨C78_stratified desk_stratified, fun I hI σ hp hs => ?_⟩
  obtain ⟨_, bs, e, _, hc, _⟩ := C78_rules deskKB desk_core hI deskQuestion_ok deskQuestion_called (b := []) plainB_nil desk_answers
  cases e
  obtain ⟨b', hb', h⟩ := hc σ hp (by simp [Dict.get]) hs
  simp only [List.mem_cons, List.not_mem_nil, or_false] at hb'
  subst hb'
  exact ⟨h "X" _ rfl, h "Y" _ rfl, h "N" _ rfl, h "M" _ rfl⟩

example {I J : Interpretation} (hI : Supported deskAr [desk] deskRules I) (hJ : Supported deskAr [desk] deskRules J) {σ : Assignment} (hσ : ∀ x, Plain (σ x)) :=
  C78_agree deskKB desk_core hI hJ deskQuestion_ok deskQuestion_called (b := []) plainB_nil desk_answers hσ (by simp [Dict.get])

/-- Without the recursive rule. -/
def nearRules : List FormRule := deskRules.eraseIdx 1

theorem near_sub : ∀ r ∈ nearRules, r ∈ deskRules := fun _ h => List.mem_of_mem_eraseIdx h

theorem near_ok : FormProgramOk InfState deskAr deskCalls [desk] nearRules := by
  refine ⟨desk_ok.notReserved, fun p k h => ?_, desk_ok.rowsOk, fun r hr => desk_rules r (near_sub r hr)⟩
  rcases desk_ok.defined p k h with h | ⟨r, hr, e⟩
  · exact .inl h
  · right
    simp only [deskRules, List.mem_cons, List.not_mem_nil, or_false] at hr
    rcases hr with rfl | rfl | rfl | rfl | rfl | rfl | rfl <;> simp_all [nearRules, deskRules, List.eraseIdx]

def nearKB : FormKnowledge InfState deskAr deskCalls [desk] nearRules where
  lens := Lens.id InfState
  world := { deskState with rules := ("left_of", (deskRules.take 1).map FormRule.toRule) :: deskState.rules.drop 1 }
  before := [desk].map (tableModule InfState)
  after := [].map (tableModule InfState)
  dbs := [desk]
  dbs' := []
  split := by simp
  facts := tableModules_fact _ _ _
  facts' := tableModules_fact _ _ _
  ok := near_ok
  inserted := by decide +kernel

theorem near_core : ∀ p ∈ coreNames, NotDefined nearKB.others nearKB.world p := by
  intro p hp m hm
  have : ∀ p ∈ coreNames, (tableModule InfState desk).relations nearKB.world p = none ∧
      (inferenceModule nearKB.lens).relations nearKB.world p = none := by
    intro p hp
    simp only [coreNames, List.mem_cons, List.not_mem_nil, or_false] at hp
    rcases hp with rfl | rfl | rfl | rfl | rfl | rfl | rfl | rfl | rfl | rfl | rfl | rfl | rfl <;> exact ⟨rfl, rfl⟩
  simp only [FormKnowledge.others, nearKB, List.mem_append, List.mem_cons, List.mem_map, List.not_mem_nil, or_false] at hm
  rcases hm with ⟨db, rfl, rfl⟩ | rfl | ⟨_, hf, _⟩
  · exact (this p hp).1
  · exact (this p hp).2
  · exact hf.elim

def nearRank : String → Nat := fun p => if p ∈ ["just_left_of", "part_of_n", "usual_n"] then 0 else if p = "left_of" then 1 else 3

/-- Then the question returns. -/
example : (∃ bs, nearKB.ask 6 deskQuestion [] = .ok nearKB.world (.rows bs)) ∨ ∃ w' e, nearKB.ask 6 deskQuestion [] = .err w' e := by
  obtain ⟨I, hI⟩ := C78_stratified (ar := deskAr) (tables := [desk]) (fun r hr => desk_stratified r (near_sub r hr))
  refine C78_returns nearKB near_core hI (rank := nearRank) ?_ deskQuestion_ok deskQuestion_called plainB_nil (by decide)
  intro r hr
  simp only [nearRules, deskRules, List.eraseIdx, List.mem_cons, List.not_mem_nil, or_false] at hr
  rcases hr with rfl | rfl | rfl | rfl | rfl | rfl <;> decide

end Ex

/-- **C78** (why it matters how predicates are asked, 1) Alternatives in a rule: with the number asked for, the first alternative that has one counts;
with another number given, the next alternative may say that it is right. So "how many" is answered by 4 only, and "5?" by yes. -/
theorem C78_alternatives_depend_on_call :
    Ex.deskKB.ask 9 [.atom "part_of_number" [.str "finger", .str "hand", .var "N"]] [] = .ok Ex.deskKB.world (.rows [[("N", .num 4)]]) ∧
      Ex.deskKB.ask 9 [.atom "part_of_number" [.str "finger", .str "hand", .num 5]] [] = .ok Ex.deskKB.world (.rows [[]]) := by
  constructor <;> decide +kernel

/-- **C78** (why it matters how predicates are asked, 2) Negation in a rule: the lamp can be left of the book, but asking what can be left of the book
gives no answer. -/
theorem C78_negation_depends_on_call :
    Ex.deskKB.ask 9 [.atom "check_left_of" [.str "lamp", .str "book"]] [] = .ok Ex.deskKB.world (.rows [[]]) ∧
      Ex.deskKB.ask 9 [.atom "check_left_of" [.var "X", .str "book"]] [] = .ok Ex.deskKB.world (.rows []) := by
  constructor <;> decide +kernel

end Verif

import Verif.Props.Replies
import Verif.Props.Total
import Verif.Props.OptimisedText

/-!
# C94: the reply to a typed question
-/

namespace Verif

variable {W : Type}

/-! ## Names in queries -/

theorem argVars_deep {x : String} {args : List Value} (h : x ∈ argVars args) : x ∈ deepVarsAll args := by
  simp only [argVars, List.mem_filterMap] at h
  obtain ⟨v, hv, he⟩ := h
  have hv' : v = .var x := by cases v <;> simp_all
  subst hv'
  clear he
  induction args with
  | nil => simp at hv
  | cons a as ih =>
    rcases List.mem_cons.1 hv with rfl | h
    · simp [deepVarsAll, deepVars]
    · simp [deepVarsAll, ih h]

mutual
theorem vars_deep {x : String} : ∀ {f : Form}, x ∈ f.vars → x ∈ deepVars f.toValue
  | .atom _ args, h => by
    simp only [Form.vars] at h
    simpa [Form.toValue, deepVars, deepVarsAll] using argVars_deep h
  | .neg q, h | .thereIsNo q, h | .thereIs q, h => by
    simp only [Form.vars] at h
    simpa [Form.toValue, deepVars, deepVarsAll] using formVars_deep h
  | .exactly q n, h | .moreThan q n, h | .fewerThan q n, h => by
    simp only [Form.vars, List.mem_append] at h
    have := (h.imp formVars_deep argVars_deep : _ ∨ _)
    simpa [Form.toValue, deepVars, deepVarsAll] using this
  | .all y r q, h => by
    simp only [Form.vars, List.mem_cons, List.mem_append] at h
    have := (h.imp_right (Or.imp formVars_deep formVars_deep) : _ ∨ _ ∨ _)
    simpa [Form.toValue, deepVars, deepVarsAll] using this
  | .count y q, h => by
    simp only [Form.vars, List.mem_cons] at h
    have := (h.imp_right formVars_deep : _ ∨ _)
    simpa [Form.toValue, deepVars, deepVarsAll] using this
  | .either qs, h => by
    simp only [Form.vars] at h
    simpa [Form.toValue, deepVars, deepVarsAll] using altVars_deep h
  | .equals a c, h | .greater a c, h | .less a c, h => by
    simp only [Form.vars] at h
    simpa [Form.toValue, deepVars, deepVarsAll] using argVars_deep h
  | .assign y v, h => by
    simp only [Form.vars, List.mem_cons] at h
    have := (h.imp_right argVars_deep : _ ∨ _)
    simpa [Form.toValue, deepVars, deepVarsAll] using this
  | .times a c y, h => by
    simp only [Form.vars, List.mem_append, List.mem_singleton] at h
    have := (h.imp_left argVars_deep : _ ∨ _)
    simpa [Form.toValue, deepVars, deepVarsAll, or_assoc] using this
theorem formVars_deep {x : String} : ∀ {q : List Form}, x ∈ formVars q → x ∈ deepVarsAll (formValues q)
  | [], h => by simp [formVars] at h
  | f :: fs, h => by
    simp only [formVars, List.mem_append] at h
    simpa [formValues, deepVarsAll] using (h.imp vars_deep formVars_deep : _ ∨ _)
theorem altVars_deep {x : String} : ∀ {qs : List (List Form)}, x ∈ altVars qs → x ∈ deepVarsAll (altValues qs)
  | [], h => by simp [altVars] at h
  | q :: qs, h => by
    simp only [altVars, List.mem_append] at h
    simpa [altValues, deepVarsAll, deepVars] using (h.imp formVars_deep altVars_deep : _ ∨ _)
end

theorem legal_args {args : List Value} (h : ArgsOk args) (hv : ∀ x ∈ argVars args, legalName x = true) : legalList args = true := by
  induction args with
  | nil => rfl
  | cons a as ih =>
    have h1 := h a (by simp)
    have ih := ih (fun b hb => h b (by simp [hb])) (fun x hx => hv x (by
      simp only [argVars, List.filterMap_cons] at hx ⊢
      split <;> simp [hx]))
    simp only [legalList, Bool.and_eq_true, ih, and_true]
    cases a with
    | var x => exact hv x (by simp [argVars])
    | _ => exact (h1 rfl).2.2

theorem given_args {B : String → Prop} {args : List Value} (h : ∀ a ∈ args, Given B a) : ArgsOk args := by
  intro a ha hv
  have := h a ha
  cases a <;> first | exact this | simp [Value.isVar] at hv

mutual
theorem legal_form {ar : String → Option Nat} : ∀ {f : Form} {B : String → Prop}, f.Ok ar B → (∀ x ∈ f.vars, legalName x = true) → legal f.toValue = true
  | .atom _ args, B, h, hv => by
    simp only [Form.toValue, legal, legalList, Bool.true_and]
    exact legal_args h.2 hv
  | .neg q, B, h, hv | .thereIsNo q, B, h, hv | .thereIs q, B, h, hv => by
    simp only [Form.toValue, legal, legalList, Bool.true_and, Bool.and_true]
    exact legal_forms (B := B) h hv
  | .exactly q n, B, h, hv | .moreThan q n, B, h, hv | .fewerThan q n, B, h, hv => by
    simp only [Form.vars, List.mem_append] at hv
    simp only [Form.toValue, legal, legalList, Bool.true_and, legal_forms h.1 (fun x hx => hv x (.inl hx))]
    exact legal_args (args := [n]) (given_args (B := B) (by simpa using h.2)) fun x hx => hv x (.inr hx)
  | .all y r q, B, h, hv => by
    simp only [Form.vars, List.mem_cons, List.mem_append] at hv
    simp only [Form.toValue, legal, legalList, Bool.and_true, hv y (.inl rfl), legal_forms h.2.2.1 (fun x hx => hv x (.inr (.inl hx))),
      legal_forms h.2.2.2 (fun x hx => hv x (.inr (.inr hx)))]
  | .count y q, B, h, hv => by
    simp only [Form.vars, List.mem_cons] at hv
    simp only [Form.toValue, legal, legalList, Bool.and_true, hv y (.inl rfl), legal_forms h.2 (fun x hx => hv x (.inr hx))]
  | .either qs, B, h, hv => by
    simp only [Form.toValue, legal, legalList, Bool.true_and, Bool.and_true]
    exact legal_alts h.1 hv
  | .equals a c, B, h, hv | .greater a c, B, h, hv | .less a c, B, h, hv => by
    simp only [Form.toValue, legal, legalList, Bool.true_and]
    simpa only [legalList] using legal_args (args := [a, c]) h hv
  | .assign y v, B, h, hv => by
    simp only [Form.vars, List.mem_cons] at hv
    simp only [Form.toValue, legal, legalList, Bool.true_and, hv y (.inl rfl)]
    exact legal_args (args := [v]) (given_args (B := B) (by simpa using h.2)) fun x hx => hv x (.inr hx)
  | .times a c y, B, h, hv => by
    simp only [Form.vars, List.mem_append, List.mem_singleton] at hv
    have := legal_args (args := [a, c]) (given_args (B := B) (by simpa using h.2)) fun x hx => hv x (.inl hx)
    simp only [legalList, Bool.and_true, Bool.and_eq_true] at this
    simp only [Form.toValue, legal, legalList, Bool.true_and, hv y (.inr rfl), this.1, this.2]
theorem legal_forms {ar : String → Option Nat} : ∀ {q : List Form} {B : String → Prop}, FormsOk ar q B → (∀ x ∈ formVars q, legalName x = true) →
    legalList (formValues q) = true
  | [], _, _, _ => rfl
  | f :: fs, B, h, hv => by
    simp only [formVars, List.mem_append] at hv
    simp only [formValues, legalList, legal_form h.1 (fun x hx => hv x (.inl hx)), legal_forms h.2 (fun x hx => hv x (.inr hx)), Bool.and_self]
theorem legal_alts {ar : String → Option Nat} : ∀ {qs : List (List Form)} {B : String → Prop}, AltsOk ar qs B → (∀ x ∈ altVars qs, legalName x = true) →
    legalList (altValues qs) = true
  | [], _, _, _ => rfl
  | q :: qs, B, h, hv => by
    simp only [altVars, List.mem_append] at hv
    simp only [altValues, legalList, legal, legal_forms h.1 (fun x hx => hv x (.inl hx)), legal_alts h.2 (fun x hx => hv x (.inr hx)), Bool.and_self]
end

theorem legal_genName (n : Nat) : legalName (genName n) = true := by
  have h : (genName n).toList = '$' :: showNat n := by simp [genName]
  have hne : genName n ≠ "None" := by
    intro e
    have := congrArg (fun s => s.toList.head?) e
    simp only [h, List.head?_cons] at this
    exact absurd this.symm (by decide)
  simp only [legalName, h, hne, ne_eq, not_false_eq_true, decide_true, Bool.and_true, List.all_cons, Bool.and_eq_true, List.all_eq_true]
  refine ⟨by decide, by decide, fun c hc => ?_⟩
  have := showNat_isDigit n c hc
  simp [nameChar, Char.isAlphanum, this]

theorem ne_genName {x : String} (h : x.toList.head? ≠ some '$') (k : Nat) : x ≠ genName k := by
  rintro rfl
  simp [genName] at h

/-! ## Specification: questions -/

/-- What a question asks for: a list of all values of a variable, one value of it, or whether something is so. -/
inductive Asked where
  | list (x : String)
  | value (x : String)
  | yesNo
deriving DecidableEq

/-- The variable that is asked for. -/
def Asked.about : Asked → Option String
  | .list x => some x
  | .value x => some x
  | .yesNo => none

/-- The meaning of a question whose content is `us`, as in `tests/integration/chat80/read_grammar.py:12-39`: `[('intent_list', e1, us)]`,
`[('intent_value', e1, us)]` or `[('intent_yn', us)]`. -/
def Asked.wrap : Asked → List Value → Value
  | .list x, us => .list [.tuple [.str "intent_list", .rvar x, .list us]]
  | .value x, us => .list [.tuple [.str "intent_value", .rvar x, .list us]]
  | .yesNo, us => .list [.tuple [.str "intent_yn", .list us]]

/-- The rule makes a question; its content is what `spec` says, and it has a signature, which need not be that of the other questions. All variables of the
content are arguments of the constituents of the rule, and the content gives values to the variable that is asked for, which is an argument of the root. The rule
has no `exec` and no `dialog`. -/
structure QuestionRule (ar : String → Option Nat) (R : List String) (kinds : Str → Nat → Kind) (spec : GRule Attachment → List Value → RuleParts)
    (asks : GRule Attachment → Asked) (r : GRule Attachment) : Prop where
  names : ∀ x ∈ formalNames r, isGenName x = false
  nodup : (argNames r.ante).Nodup
  parts : ∀ ws, ValuesFor kinds r.cons ws → ∃ sg e, spec r ws = .parts [] e ∧ RootSig sg ∧ RulePartsOk ar R kinds sg r [] e ∧
    (∀ x, (asks r).about = some x → x ∈ flagged (argNames r.ante) sg.after) ∧
    (∀ y ∈ everyVarAll (consArgs r) (argNames r.ante) e, y ∈ formalNames r) ∧
    ∀ f, semOf r.sem = some f → ∀ vs us s, vs.length = r.cons.length → evalAll [] (fun i => vs.getD i .none) e = .ok us →
      f (ruleArgs kinds r.cons ws vs) = .ok s → s = (asks r).wrap us
  noExec : execOf r.sem = none
  noDialog : ∀ sems, dialogOf r.sem sems = .ok []

/-- The content of the question is true of some values. -/
def TrueOfSome (P : Program) (spec : GRule Attachment → List Value → RuleParts) (t : ParseTree Attachment) : Prop :=
  ∃ vals : List Value, vals.length = t.rule.ante.args.length ∧ (∀ v ∈ vals, Plain v) ∧ SentenceTrue P spec t vals

/-- The content of the question is true of some values, of which `v` is the one for `x`. -/
def TrueFor (P : Program) (spec : GRule Attachment → List Value → RuleParts) (t : ParseTree Attachment) (x : String) (v : Value) : Prop :=
  ∃ vals : List Value, vals.length = t.rule.ante.args.length ∧ (∀ v ∈ vals, Plain v) ∧ SentenceTrue P spec t vals ∧
    ∃ j : Nat, (argNames t.rule.ante)[j]? = some x ∧ vals[j]? = some v

/-- What the right reply is. -/
def RightReply (P : Program) (spec : GRule Attachment → List Value → RuleParts) (t : ParseTree Attachment) (f : List Value → Except Err Value) (yes no : Str) :
    Asked → Value → Prop
  | .list x, reply => ∃ els : List Value, els.Nodup ∧ (∀ v, v ∈ els ↔ TrueFor P spec t x v) ∧ f [.list els] = .ok reply
  | .value x, reply => TrueFor P spec t x reply
  | .yesNo, reply => (TrueOfSome P spec t ∧ reply = .str (String.ofList yes)) ∨ (¬ TrueOfSome P spec t ∧ reply = .str (String.ofList no))

/-- When an exception is to be expected instead of a reply: the function that formats a list may raise it; and if a value is asked for, while there is none, then
no rule of the write grammar applies. -/
def Excused (P : Program) (spec : GRule Attachment → List Value → RuleParts) (t : ParseTree Attachment) (f : List Value → Except Err Value) : Asked → Err → Prop
  | .list x, e => ∃ els : List Value, els.Nodup ∧ (∀ v, v ∈ els ↔ TrueFor P spec t x v) ∧ f [.list els] = .error e
  | .value x, e => (¬ ∃ v, TrueFor P spec t x v) ∧ e = .exception "No rule found"
  | .yesNo, _ => False

/-- There are an intent and write rules for this kind of question. -/
def Served (ms : List (Module W)) (w : W) (g : W → InfState) (wg : Grammar WriteSem) (f : List Value → Except Err Value) (yes no : Str) : Asked → Prop
  | .list _ => IntentIn ms w g "intent_list" listIntent ∧ NotDefined ms w "find_all" ∧ ∃ rule, RepliesWith wg "list" rule ∧ ListRule rule f
  | .value _ => IntentIn ms w g "intent_value" valueIntent ∧ NotDefined ms w "find_one" ∧ (∃ rule, RepliesWith wg "value" rule ∧ ValueRule rule) ∧
      ∀ r ∈ wg.findRules ['s'] 0, ∃ t more, ForType r t more
  | .yesNo => IntentIn ms w g "intent_yn" ynIntent ∧ (∃ rule, RepliesWith wg "yes" rule ∧ TextRule rule "yes" yes) ∧
      ∃ rule, RepliesWith wg "no" rule ∧ TextRule rule "no" no

/-! ## Composing a question -/

/-- What the composer makes of the meaning of a question. -/
def Asked.composed (ρ : String → String) : Asked → Value → Value
  | .list x, v => .list [.tuple [.str "intent_list", .str (ρ x), v]]
  | .value x, v => .list [.tuple [.str "intent_value", .str (ρ x), v]]
  | .yesNo, v => .list [.tuple [.str "intent_yn", v]]

theorem extendMap_wrap (a : Asked) (us : List Value) (d : Dict String) (g : Gen) : extendMap d (a.wrap us) g = .ok g d := by
  cases a <;> rfl

theorem unify_wrap {a : Asked} {us : List Value} {d : Dict String} (h : ∀ x, a.about = some x → ∃ y, d.get x = some y) :
    unify d (a.wrap us) = a.composed (fun x => (d.get x).getD x) (unify d (.list us)) := by
  cases a with
  | yesNo => rfl
  | list x => obtain ⟨y, hy⟩ := h x rfl; simp [Asked.wrap, Asked.composed, unify, unifyList, hy]
  | value x => obtain ⟨y, hy⟩ := h x rfl; simp [Asked.wrap, Asked.composed, unify, unifyList, hy]

section
variable {ar : String → Option Nat} {P : Program} {R : List String} {kinds : Str → Nat → Kind} {spec : GRule Attachment → List Value → RuleParts}
  {asks : GRule Attachment → Asked}

/-- The composed question asks for the root variable, and its content is a query that says what the tree means. -/
theorem compose_question {cat : Str} {cs : List (ParseTree Attachment)} {form : Str} {r : GRule Attachment} (hq : QuestionRule ar R kinds spec asks r)
    (hcs : TreesSpec ar P R kinds spec r.cons cs) {inc : List String} {g g' : Gen} {c : Composed} (hold : ∀ v ∈ inc, Fresh 0 g.number v)
    (hnd : inc.Nodup) (hlen : inc.length = r.ante.args.length) (h : compose (.node cat cs form r) inc g = .ok g' c) :
    ∃ D v ρ sg, nodeMeaning P spec (.node cat cs form r) = .phrase D ∧ c.sem = (asks r).composed ρ v ∧ RootSig sg ∧
      (∀ x, (asks r).about = some x → x ∈ flagged (argNames r.ante) sg.after) ∧
      (∀ (j : Nat) a, (argNames r.ante)[j]? = some a → inc[j]? = some (ρ a)) ∧
      PhraseValue ar P R sg inc g.number g'.number v D := by
  obtain ⟨sg, e, he, hsg, hparts, hin, hformal, hf⟩ := hq.parts _ hcs.values
  unfold compose at h
  rw [M.bind_eq_ok] at h
  obtain ⟨g1, d, hd, h⟩ := h
  rw [M.bind_eq_ok] at h
  obtain ⟨g2, parts, hp, h⟩ := h
  have hg1 := (advances_createMap _ _).le hd
  have hg2 := (advances_composeChildren _ _ _ _ _).le hp
  obtain ⟨m1, m2, _, _⟩ := createMap_spec hd
  have hante : ∀ (j : Nat) a, (argNames r.ante)[j]? = some a → ∃ v, inc[j]? = some v ∧ d.get a = some v := by
    intro j a hj
    refine m1 a j ⟨hj, fun k hk hk' => ?_⟩
    have := (List.getElem?_inj (List.getElem?_eq_some_iff.1 hj).1 hq.nodup).1 (hj.trans hk'.symm)
    omega
  have hdold : OldMap d g1.number := by
    intro x v hx
    by_cases ha : x ∈ argNames r.ante
    · obtain ⟨j, hj⟩ := LastArg.exists ha
      obtain ⟨u, hu1, hu2⟩ := m1 x j hj
      rw [hx] at hu2
      cases hu2
      exact (hold v (List.mem_of_getElem? hu1)).mono (Nat.le_refl _) hg1
    · exact (m2 x v hx ha).1.mono (Nat.zero_le _) (Nat.le_refl _)
  obtain ⟨L, hL, hk⟩ := composeChildren_good cs r.cons d 0 ⟨[], [], [], []⟩ g1 g2 parts hcs.good hcs.length.symm hdold hp
  cases hsem : semOf r.sem with
  | none => simp [hsem] at h
  | some f =>
    simp only [hsem, M.bind_eq_ok, M.lift_eq_ok, M.pure_eq_ok] at h
    obtain ⟨_, s, ⟨rfl, hfs⟩, _, ex, ⟨rfl, _⟩, _, dg, ⟨rfl, _⟩, g3, d', hx, rfl, rfl⟩ := h
    simp only [List.nil_append] at hL
    rw [hL] at hfs
    have hl' : (L.map Kid.value).length = r.cons.length := by simp [hk.length, hcs.length]
    rw [hcs.args _ hl'] at hfs
    obtain ⟨us, hus, hpv⟩ := node_parts_map (P := P) (g3 := g2) (d' := d) hq.names hq.nodup (partsOk_of hcs hparts) hnd hlen hold hd hg2 hk (Nat.le_refl _)
      (Grows.refl _ _ _) (fun x v h h' => by rw [h] at h'; simp at h') (.inl hformal)
    have hs := hf f hsem _ us s hl' hus hfs
    subst hs
    rw [extendMap_wrap] at hx
    cases hx
    have hρ : ∀ (j : Nat) a, (argNames r.ante)[j]? = some a → inc[j]? = some ((d.get a).getD a) := by
      intro j a hj
      obtain ⟨v, h1, h2⟩ := hante j a hj
      rw [h2]
      exact h1
    refine ⟨_, _, fun x => (d.get x).getD x, sg, by simp only [nodeMeaning, he], unify_wrap fun x hx => ?_, hsg, hin, hρ, hpv⟩
    have hmem : x ∈ argNames r.ante := by
      have := hin x hx
      simp only [flagged, List.mem_filterMap] at this
      obtain ⟨p, hp, he⟩ := this
      split at he
      · cases he; exact (List.of_mem_zip hp).1
      · cases he
    obtain ⟨j, hj⟩ := List.getElem?_of_mem hmem
    obtain ⟨v, _, h2⟩ := hante j x hj
    exact ⟨v, h2⟩

/-- The rule of the root of a parse tree, and what is known about the trees below it. -/
theorem question_tree {E : Oracles} {rules : List (GRule Attachment)} (ok : RulesOk rules)
    (hspec : ∀ r, Usable rules r → r.ante.predicate ≠ cRoot → SpecRule ar R kinds spec r)
    (hnest : ∀ r, Usable rules r → ∀ c ∈ r.cons, c.pos = .relation → c.predicate ≠ cRoot) {text : Str} {i k : Nat} {c0 : Constituent}
    (hc1 : c0.predicate = cRoot) (hc2 : c0.pos = .relation) {d : DTree Attachment} (hd : Derives E rules text [c0] i k [d]) {t : ParseTree Attachment}
    (ht : TreesOf Eq [d] [t]) : ∃ cat cs form r, t = .node cat cs form r ∧ Usable rules r ∧ r.ante.predicate = cRoot ∧ cs ≠ [] ∧
      TreesSpec ar P R kinds spec r.cons cs := by
  cases hd with
  | leaf htok _ => rcases htok.2.2 with h | h <;> rw [h.1] at hc2 <;> cases hc2
  | @node _ _ _ j _ r ds _ hu heq hk _ =>
    cases ht with
    | @node _ _ _ us _ _ hrr hus _ =>
      subst hrr
      have hts : TreesSpec ar P R kinds spec r.cons us :=
        derived_spec_in ok (T := fun p => p ≠ cRoot) (fun r' hr' hne => ⟨hspec r' hr' hne, hnest r' hr'⟩) hk (hnest r hu) us hus
      refine ⟨_, us, _, r, rfl, hu, (equals_iff heq).1.trans hc1, fun e => ?_, hts⟩
      obtain ⟨r0, hr0, hv⟩ := hu
      have := hts.length
      rw [e] at this
      exact ok.cons_ne r0 hr0 r hv (List.length_eq_zero_iff.1 this.symm)

end

/-! ## The turn -/

section
variable {ms : List (Module W)} {w w' : W} {l : Lens W SimpleStore} {ar : String → Option Nat} {P : Program} {g : W → InfState} {wg : Grammar WriteSem}
  {f : List Value → Except Err Value} {yes no : Str} {out : SolOut}

/-- The content of a composed question: its variables, when it can be satisfied, and what its answers are. -/
theorem question_facts (hbuf : StoresIn ms l outputRelations w) (hempty : l.get w = SimpleStore.clear)
    {spec : GRule Attachment → List Value → RuleParts} {t : ParseTree Attachment} {roots : List String} {ρ : String → String} {q : List Form}
    (hok : FormsOk ar q (fun _ => False)) (hgen : ∀ x ∈ deepVarsAll (formValues q), ∃ k, x = genName k) (hlen : roots.length = t.rule.ante.args.length)
    (hρ : ∀ (j : Nat) a, (argNames t.rule.ante)[j]? = some a → roots[j]? = some (ρ a))
    (hs : ∀ σ : Assignment, (∀ x, Plain (σ x)) → SatAll P q (fun _ => False) σ → SentenceTrue P spec t (roots.map σ))
    (hc : ∀ vals : List Value, vals.length = roots.length → (∀ v ∈ vals, Plain v) → SentenceTrue P spec t vals →
      ∃ σ : Assignment, (∀ x, Plain (σ x)) ∧ roots.map σ = vals ∧ SatAll P q (fun _ => False) σ) :
    (∀ x : String, x.toList.head? ≠ some '$' → x ∉ formVars q) ∧ Askable ms w l ar anyCall q ∧ (Satisfiable P q ↔ TrueOfSome P spec t) ∧
      (∀ x ∈ argNames t.rule.ante, ∀ v, IsAnswer P q (ρ x) v ↔ TrueFor P spec t x v) ∧ ∀ x ∈ formVars q, legalName x = true := by
  have hvars : ∀ x ∈ formVars q, ∃ k, x = genName k := fun x hx => hgen x (formVars_deep hx)
  have hlegal : ∀ x ∈ formVars q, legalName x = true := fun x hx => by
    obtain ⟨k, rfl⟩ := hvars x hx
    exact legal_genName k
  refine ⟨fun x hx hm => ?_, ⟨hbuf, hempty, hok, formsCalled_any q _, ?_⟩, ?_, ?_, hlegal⟩
  · obtain ⟨k, hk⟩ := hvars x hm
    exact ne_genName hx k hk
  · simp only [legal]
    exact legal_forms hok hlegal
  · constructor
    · rintro ⟨σ, s1, s2⟩
      exact ⟨roots.map σ, by simpa using hlen, fun v hv => by obtain ⟨x, _, rfl⟩ := List.mem_map.1 hv; exact s1 x, hs σ s1 s2⟩
    · rintro ⟨vals, v1, v2, v3⟩
      obtain ⟨σ, s1, _, s3⟩ := hc vals (v1.trans hlen.symm) v2 v3
      exact ⟨σ, s1, s3⟩
  · intro x hx v
    obtain ⟨j, hj⟩ := List.getElem?_of_mem hx
    have hr := hρ j x hj
    constructor
    · rintro ⟨σ, s1, s2, s3⟩
      refine ⟨roots.map σ, by simpa using hlen, fun v hv => by obtain ⟨x, _, rfl⟩ := List.mem_map.1 hv; exact s1 x, hs σ s1 s3, j, hj, ?_⟩
      simp [hr, s2]
    · rintro ⟨vals, v1, v2, v3, j', hj', hv⟩
      obtain ⟨σ, s1, s2, s3⟩ := hc vals (v1.trans hlen.symm) v2 v3
      refine ⟨σ, s1, ?_, s3⟩
      rw [← s2, List.getElem?_map, hρ j' x hj'] at hv
      simpa using hv

/-- The reply to a composed question. -/
theorem composed_reply (H : BaseIn ms w ar anyCall P)
    {spec : GRule Attachment → List Value → RuleParts} {t : ParseTree Attachment} {ρ : String → String} {q : List Form}
    (hnames : ∀ x : String, x.toList.head? ≠ some '$' → x ∉ formVars q) (A : Askable ms w l ar anyCall q) (hsome : Satisfiable P q ↔ TrueOfSome P spec t)
    (hfor : ∀ x ∈ argNames t.rule.ante, ∀ v, IsAnswer P q (ρ x) v ↔ TrueFor P spec t x v)
    {a : Asked} (hserved : Served ms w g wg f yes no a) (hb : ∀ x, a.about = some x → x ∈ argNames t.rule.ante ∧ ρ x ∈ formBinds q) {n m : Nat} {w'' : W}
    {reply : Value} (h : (solverAt (modelOf ms) n).solve (a.composed ρ (.list (formValues q))) [] w = .ok w' out)
    (hgo : generateOutput (solverAt (modelOf ms) n) wg l m w' = .ok w'' reply) : w'' = w ∧ RightReply P spec t f yes no a reply := by
  obtain ⟨n, rfl⟩ : ∃ k, n = k + 1 := by
    cases n with
    | zero => simp [solverAt] at h
    | succ n => exact ⟨n, rfl⟩
  obtain ⟨m, rfl⟩ : ∃ k, m = k + 1 := by
    cases m with
    | zero => simp [generateOutput, genNode, M.bind_run] at hgo
    | succ m => exact ⟨m, rfl⟩
  cases a with
  | list x =>
    obtain ⟨hi, hcf, rule, hr1, hr2⟩ := hserved
    obtain ⟨hx1, hx2⟩ := hb x rfl
    obtain ⟨_, els, e1, e2, e3⟩ := list_general H A hi hcf (hnames _ (by decide)) (hnames _ (by decide)) hx2 hr1 hr2 h
    rw [e3 n m] at hgo
    cases hf : f [.list els] with
    | error e => rw [hf] at hgo; cases hgo
    | ok v =>
      rw [hf] at hgo
      cases hgo
      exact ⟨rfl, els, e1, fun v => (e2 v).trans (hfor x hx1 v), hf⟩
  | value x =>
    obtain ⟨hi, hcf, ⟨rule, hr1, hr2⟩, hall⟩ := hserved
    obtain ⟨hx1, hx2⟩ := hb x rfl
    rcases value_general H A hi hcf (hnames _ (by decide)) (hnames _ (by decide)) hx2 hr1 hr2 h with ⟨v, e1, _, e3⟩ | ⟨_, _, rfl⟩
    · rw [e3 n m] at hgo
      cases hgo
      exact ⟨rfl, (hfor x hx1 _).1 e1⟩
    · rw [reply_none A.buffer A.empty hall m] at hgo
      cases hgo
  | yesNo =>
    obtain ⟨hi, ⟨ry, hy1, hy2⟩, rn, hn1, hn2⟩ := hserved
    obtain ⟨_, text, e1, e2⟩ := yn_general H A hi (hnames _ (by decide)) hy1 hy2 hn1 hn2 h
    rw [e2 n m] at hgo
    cases hgo
    refine ⟨rfl, ?_⟩
    rcases e1 with ⟨e, rfl⟩ | ⟨e, rfl⟩
    · exact .inl ⟨hsome.1 e, rfl⟩
    · exact .inr ⟨fun h => e (hsome.2 h), rfl⟩

end

theorem flagged_index {x : String} : ∀ {xs : List String} {fs : List Bool}, x ∈ flagged xs fs → ∃ j : Nat, xs[j]? = some x ∧ fs[j]? = some true
  | [], fs, h => by simp [flagged] at h
  | y :: xs, [], h => by simp [flagged] at h
  | y :: xs, b :: fs, h => by
    by_cases hh : x ∈ flagged xs fs
    · obtain ⟨j, h1, h2⟩ := flagged_index hh
      exact ⟨j + 1, h1, h2⟩
    · cases b with
      | false => exact absurd (by simpa [flagged] using h) hh
      | true =>
        refine ⟨0, ?_, rfl⟩
        simp only [flagged, List.zip_cons_cons, List.filterMap_cons, if_true, List.mem_cons] at h
        rcases h with rfl | h
        · rfl
        · exact absurd (by simpa [flagged] using h) hh

theorem index_flagged {x : String} : ∀ {xs : List String} {fs : List Bool} {j : Nat}, xs[j]? = some x → fs[j]? = some true → x ∈ flagged xs fs
  | [], _, j, h, _ => by simp at h
  | y :: xs, [], j, _, h => by simp at h
  | y :: xs, b :: fs, 0, h1, h2 => by simp_all [flagged]
  | y :: xs, b :: fs, j + 1, h1, h2 => by
    have := index_flagged (xs := xs) (fs := fs) (j := j) h1 h2
    cases b <;> simp_all [flagged]

section
variable {ms : List (Module W)} {w : W} {l : Lens W SimpleStore} {ar : String → Option Nat} {P : Program} {R : List String} {kinds : Str → Nat → Kind}
  {spec : GRule Attachment → List Value → RuleParts} {asks : GRule Attachment → Asked}

/-- What the composer makes of the tree of a question. -/
theorem composed_question (hbuf : StoresIn ms l outputRelations w) (hempty : l.get w = SimpleStore.clear) {cat : Str} {cs : List (ParseTree Attachment)}
    {form : Str} {r : GRule Attachment} (hq : QuestionRule ar R kinds spec asks r) (hcne : cs ≠ []) (hts : TreesSpec ar P R kinds spec r.cons cs)
    {g g' : Gen} {roots : List String} {c : Composed} (h : composeSentence (.node cat cs form r) g = .ok g' (roots, c)) :
    c.inferences = [] ∧ c.executable = [] ∧ ∃ ρ q, c.sem = (asks r).composed ρ (.list (formValues q)) ∧
      (∀ x, (asks r).about = some x → x ∈ argNames r.ante ∧ ρ x ∈ formBinds q) ∧
      (∀ x : String, x.toList.head? ≠ some '$' → x ∉ formVars q) ∧ Askable ms w l ar anyCall q ∧
      (Satisfiable P q ↔ TrueOfSome P spec (.node cat cs form r)) ∧
      (∀ x ∈ argNames r.ante, ∀ v, IsAnswer P q (ρ x) v ↔ TrueFor P spec (.node cat cs form r) x v) ∧ ∀ x ∈ formVars q, legalName x = true := by
  obtain ⟨g1, h1, h2, _⟩ := composeSentence_parts h
  obtain ⟨hfr, hnodup⟩ := roots_fresh h1
  have hlen : roots.length = r.ante.args.length := (nextVars_roots h1).2.1
  obtain ⟨i1, i2⟩ := compose_silent (.node cat cs form r) _ _ _ _ hcne (by simp only [Silent]; exact ⟨fun _ => ⟨hq.noExec, hq.noDialog⟩, hts.silent⟩) h2
  obtain ⟨D, v, ρ, sg, hD, hsem, hsg2, hsg3, hρ, hpv⟩ := compose_question hq hts hfr hnodup hlen h2
  obtain ⟨q, rfl, q2, q3, q4, q5, q6⟩ := phrase_query hsg2 hfr (nextVars_nodup h1) hpv
  refine ⟨i1, i2, ρ, q, hsem, fun x hx => ?_, question_facts (P := P) hbuf hempty (spec := spec) (t := .node cat cs form r) (roots := roots) q2 q4 hlen hρ
    (fun σ hp hs => ⟨D, hD, q5 σ hp hs⟩) ?_⟩
  · obtain ⟨j, hj1, hj2⟩ := flagged_index (hsg3 x hx)
    exact ⟨List.mem_of_getElem? hj1, q3 _ (index_flagged (hρ j x hj1) hj2)⟩
  · rintro vals hlen hpl ⟨D', hD', hv⟩
    rw [hD] at hD'
    cases hD'
    exact q6 vals hlen hpl hv

end

section
variable {ar : String → Option Nat} {tables : List (Dict (List (List Value)))} {rs : List HornRule} {l : Lens W SimpleStore} {g : W → InfState}
  {wg : Grammar WriteSem} {f : List Value → Except Err Value} {yes no : Str}
  {R : List String} {kinds : Str → Nat → Kind} {spec : GRule Attachment → List Value → RuleParts} {asks : GRule Attachment → Asked}

/-- **C94** A question is typed that can be derived from a grammar whose sentences are questions, in a session in which texts were entered before, over
stored rows and (recursive) rules, with the intents and an output buffer that is empty. If there is a reply, then there is a derivation of the text whose
tree is first in rank, and the reply is right: to a question for a list, it is the format of a list that holds precisely the values that the content
of the question is true for, each once; to a question for a value, it is such a value; and to a yes/no question it is the text for "yes" if the content is true of
some values, and the text for "no" if it is not. After the reply the world is as it was, so that the session can be continued. -/
theorem C94_reply (K : KnowledgeBase W ar tables rs) (hrr : HeadsBound rs) (hcore : ∀ p ∈ coreNames, NotDefined K.others K.world p)
    (hbuf : StoresIn K.others l outputRelations K.world) (hempty : l.get K.world = SimpleStore.clear)
    (E : Oracles) (rules : List (GRule Attachment)) (ok : RulesOk rules)
    (hspec : ∀ r, Usable rules r → r.ante.predicate ≠ cRoot → SpecRule ar R kinds spec r)
    (hquest : ∀ r, Usable rules r → r.ante.predicate = cRoot → QuestionRule ar R kinds spec asks r ∧ Served K.others K.world g wg f yes no (asks r))
    (hnest : ∀ r, Usable rules r → ∀ c ∈ r.cons, c.pos = .relation → c.predicate ≠ cRoot)
    (text : Str) (hl : LowerOk E (normalizeSpace text)) (fuel depth n m : Nat)
    {fuel' depth' : Nat} (texts : List Str) {s : Session W} (hg : s.grammar = parseHistory E fuel' depth' (Grammar.new rules) texts)
    (hw : s.world = K.world) (hder : ∃ d, WholeDerivation E rules (normalizeSpace text) d) {s' : Session W} {reply : Value}
    (h : turn (solverAt K.modules n).inSession (sentencePipeline E fuel depth none (solverAt K.modules n)) wg l.inSession m text s = .ok s' reply) :
    s'.world = K.world ∧ s'.grammar = parseHistory E fuel' depth' (Grammar.new rules) (texts ++ [normalizeSpace text]) ∧
    ∃ t d, WholeDerivation E rules (normalizeSpace text) d ∧ TreesOf Eq [d] [t] ∧
      (∀ d', WholeDerivation E rules (normalizeSpace text) d' → ∃ t', TreesOf (fun r r' => r.equals r' = true) [d'] [t'] ∧
        (t' = t ∨ RankedBefore t t')) ∧
      RightReply (program tables rs) spec t f yes no (asks t.rule) reply := by
  obtain ⟨st, res, henter, hgo⟩ : ∃ st res, enter (solverAt K.modules n).inSession (sentencePipeline E fuel depth none (solverAt K.modules n)) (Request.new text, s) =
      .ok st res ∧ generateOutput (solverAt K.modules n).inSession wg l.inSession m st.2 = .ok s' reply := by
    simp only [turn] at h
    cases he : enter (solverAt K.modules n).inSession (sentencePipeline E fuel depth none (solverAt K.modules n)) (Request.new text, s) with
    | ok st res => rw [he] at h; exact ⟨st, res, rfl, h⟩
    | err st e => rw [he] at h; cases h
    | oof => rw [he] at h; cases h
  rw [generateOutput_inSession] at hgo
  obtain ⟨w2, hgen, rfl⟩ := inWorld_ok.1 hgo
  obtain ⟨hgr, h⟩ := enter_sentence henter
  have hhist : st.2.grammar = parseHistory E fuel' depth' (Grammar.new rules) (texts ++ [normalizeSpace text]) := by
    rw [hgr, hg, parseHistory, parseHistory, List.foldl_append]; rfl
  rw [hg, C33_no_memory_block] at h
  simp only [basicParse] at h
  cases hr : (parse E fuel depth (Grammar.new rules) (normalizeSpace text)).1 with
  | err e => rw [hr] at h; simp [Out.bind] at h
  | oof => rw [hr] at h; simp [Out.bind] at h
  | ok p =>
    obtain ⟨trees, e'⟩ := p
    rw [hr] at h
    simp only [Out.bind, Out.ok.injEq, Prod.mk.injEq] at h
    have hperm := C38_permutation trees
    have hord := C38_order trees
    rcases h with ⟨e, hp, _⟩ | ⟨t, rest, g', roots, c, w1, w2', w3, forms, o, out, hp, hcomp, hforms, hwr, hexec, hsolve, _, _, _⟩
    · obtain ⟨d, c0, hc1, hc2, hd⟩ := hder
      obtain ⟨t, ht, _⟩ := C30_complete E rules ok _ hl fuel depth trees e' hr c0 hc1 hc2 d hd
      rw [hp.1] at hperm
      have := hperm.mem_iff.2 ht
      simp at this
    · rw [hp.1] at hperm hord
      obtain ⟨c0, d, hc1, hc2, hd, htree⟩ := C29_derivation E rules ok _ hl fuel depth trees e' hr t (hperm.mem_iff.1 (by simp))
      obtain ⟨cat, cs, form, r, rfl, hu, hur, hcne, hts⟩ := question_tree (P := program tables rs) ok hspec hnest hc1 hc2 hd htree
      obtain ⟨hq, hserved⟩ := hquest r hu hur
      obtain ⟨i1, i2, ρ, q, hsem, hb, f1, f2, f3, f4, _⟩ := composed_question hbuf hempty hq hcne hts hcomp
      rw [i1] at hwr
      rw [i2] at hexec
      simp only [writeAll, M.pure_eq_ok] at hwr
      obtain ⟨rfl, _⟩ := hwr
      have hw3 : w1 = w3 := by
        cases n with
        | zero => cases hexec
        | succ n =>
          have : (solverAt K.modules (n + 1)).solve (.list []) [] w1 = .ok w1 (.rows [[]]) := rfl
          rw [this] at hexec
          cases hexec; rfl
      subst hw3
      simp only [composerForms, M.pure_eq_ok] at hforms
      obtain ⟨hw1, rfl⟩ := hforms
      simp only [ComposerProduct.lastIteration, List.foldl_cons, List.foldl_nil] at hsolve
      rw [← hw1, hw, hsem] at hsolve
      obtain ⟨rfl, hright⟩ := composed_reply (K.base hrr hcore).toIn f1 f2 f3 f4 hserved hb hsolve hgen
      refine ⟨rfl, hhist, _, d, ⟨c0, hc1, hc2, hd⟩, htree, ?_, hright⟩
      rintro d' ⟨c', hc1', hc2', hd'⟩
      obtain ⟨t', ht', htr'⟩ := C30_complete E rules ok _ hl fuel depth trees e' hr c' hc1' hc2' d' hd'
      refine ⟨t', htr', ?_⟩
      rcases List.mem_cons.1 (hperm.mem_iff.2 ht') with e | hm
      · exact .inl e
      · exact .inr ((List.pairwise_cons.1 hord).1 t' hm)

/-- A composed question gets a reply, or an exception that is to be expected, or the exception that its content raises. -/
theorem composed_returns (K : KnowledgeBase W ar tables rs) (hrr : HeadsBound rs) (hcore : ∀ p ∈ coreNames, NotDefined K.others K.world p)
    {rank : String → Nat} (hrank : Descends (program tables rs) rank) {t : ParseTree Attachment} {ρ : String → String} {q : List Form}
    (hnames : ∀ x : String, x.toList.head? ≠ some '$' → x ∉ formVars q) (A : Askable K.others K.world l ar anyCall q)
    (hfor : ∀ x ∈ argNames t.rule.ante, ∀ v, IsAnswer (program tables rs) q (ρ x) v ↔ TrueFor (program tables rs) spec t x v)
    {a : Asked} (hserved : Served K.others K.world g wg f yes no a) (hb : ∀ x, a.about = some x → x ∈ argNames t.rule.ante ∧ ρ x ∈ formBinds q) {n m : Nat}
    (hn : formsDepth rank q + 4 ≤ n) (hm : 1 ≤ m) :
    (∃ w' out, (solverAt K.modules n).solve (a.composed ρ (.list (formValues q))) [] K.world = .ok w' out ∧
      ((∃ reply, generateOutput (solverAt K.modules n) wg l m w' = .ok K.world reply) ∨
        ∃ w'' e, generateOutput (solverAt K.modules n) wg l m w' = .err w'' e ∧ Excused (program tables rs) spec t f a e)) ∨
    ∃ w' e b k, (solverAt K.modules n).solve (a.composed ρ (.list (formValues q))) [] K.world = .err w' e ∧
      (∀ x v, b.get x = some v → x ∉ formVars q) ∧ K.askForms k q b = .err w' e := by
  obtain ⟨m, rfl⟩ : ∃ k, m = k + 1 := ⟨m - 1, by omega⟩
  have H := (K.base hrr hcore).toIn
  cases a with
  | list x =>
    obtain ⟨hi, hcf, rule, hr1, hr2⟩ := hserved
    obtain ⟨hx1, hx2⟩ := hb x rfl
    obtain ⟨n, rfl⟩ : ∃ k, n = k + 3 := ⟨n - 3, by omega⟩
    have hrb := binding_two (x := "E1") (y := "Sem") (hnames _ (by decide)) (hnames _ (by decide)) (str_plain (ρ x)) A.plain
    have hq : FormsOk ar q (fun y => Dict.has [("E1", Value.str (ρ x)), ("Sem", .list (formValues q))] y = true) := by
      refine formsOk_congr q (fun y hy => ⟨False.elim, fun h => ?_⟩) A.ok
      obtain ⟨v, hv⟩ := (Dict.has_iff _ _).1 h
      exact (hrb y v hv).1 hy
    obtain ⟨s1, s2, _⟩ := list_stores (l := l) (n := n) (x := ρ x) hcf hi (body := .list (formValues q)) rfl
    rcases C71_returns K hrr hcore hrank hq (fun y v h => (hrb y v h).2) (n := n + 1) (by omega) with ⟨bs, h⟩ | ⟨w', e, h⟩
    · obtain ⟨w2, h2, _⟩ := s1 _ _ A.buffer A.empty h
      obtain ⟨_, els, e1, e2, e3⟩ := list_general H A hi hcf (hnames _ (by decide)) (hnames _ (by decide)) hx2 hr1 hr2 h2
      refine .inl ⟨w2, _, h2, ?_⟩
      have e3 : generateOutput (solverAt K.modules (n + 3)) wg l (m + 1) w2 = _ := e3 (n + 2) m
      rw [e3]
      cases hf : f [.list els] with
      | ok v => exact .inl ⟨v, rfl⟩
      | error e => exact .inr ⟨w2, e, rfl, els, e1, fun v => (e2 v).trans (hfor x hx1 v), hf⟩
    · exact .inr ⟨w', e, _, n + 1, s2 _ _ h, fun y v h => (hrb y v h).1, h⟩
  | value x =>
    obtain ⟨hi, hcf, ⟨rule, hr1, hr2⟩, hall⟩ := hserved
    obtain ⟨hx1, hx2⟩ := hb x rfl
    obtain ⟨n, rfl⟩ : ∃ k, n = k + 3 := ⟨n - 3, by omega⟩
    have hrb := binding_two (x := "Variable") (y := "Sem") (hnames _ (by decide)) (hnames _ (by decide)) (str_plain (ρ x)) A.plain
    have hq : FormsOk ar q (fun y => Dict.has [("Variable", Value.str (ρ x)), ("Sem", .list (formValues q))] y = true) := by
      refine formsOk_congr q (fun y hy => ⟨False.elim, fun h => ?_⟩) A.ok
      obtain ⟨v, hv⟩ := (Dict.has_iff _ _).1 h
      exact (hrb y v hv).1 hy
    obtain ⟨s1, s2, _⟩ := value_stores (l := l) (n := n) (x := ρ x) hcf hi (body := .list (formValues q)) rfl
    rcases C71_returns K hrr hcore hrank hq (fun y v h => (hrb y v h).2) (n := n + 1) (by omega) with ⟨bs, h⟩ | ⟨w', e, h⟩
    · obtain ⟨w2, out, h2⟩ : ∃ w2 out, (solverAt K.modules (n + 3)).solve (.list [.tuple [.str "intent_value", .str (ρ x), .list (formValues q)]]) [] K.world =
          .ok w2 out := by
        have h2 := s1 _ _ A.buffer A.empty h
        split at h2
        · exact ⟨_, _, h2⟩
        · obtain ⟨w2, h2, _⟩ := h2
          exact ⟨_, _, h2⟩
      refine .inl ⟨w2, out, h2, ?_⟩
      rcases value_general H A hi hcf (hnames _ (by decide)) (hnames _ (by decide)) hx2 hr1 hr2 h2 with ⟨v, e1, _, e3⟩ | ⟨e1, _, rfl⟩
      · exact .inl ⟨v, e3 (n + 2) m⟩
      · exact .inr ⟨_, _, reply_none A.buffer A.empty hall m, fun ⟨v, hv⟩ => e1 ⟨v, (hfor x hx1 v).2 hv⟩, rfl⟩
    · exact .inr ⟨w', e, _, n + 1, s2 _ _ h, fun y v h => (hrb y v h).1, h⟩
  | yesNo =>
    obtain ⟨hi, ⟨ry, hy1, hy2⟩, rn, hn1, hn2⟩ := hserved
    obtain ⟨n, rfl⟩ : ∃ k, n = k + 4 := ⟨n - 4, by omega⟩
    have hrb : ∀ y v, Dict.get [("Body", Value.list (formValues q))] y = some v → y ∉ formVars q ∧ Plain v := by
      intro y v h
      simp only [Dict.get] at h
      split at h
      · rename_i e
        cases h
        subst e
        exact ⟨hnames _ (by decide), A.plain⟩
      · cases h
    have hq : FormsOk ar q (fun y => Dict.has [("Body", Value.list (formValues q))] y = true) := by
      refine formsOk_congr q (fun y hy => ⟨False.elim, fun h => ?_⟩) A.ok
      obtain ⟨v, hv⟩ := (Dict.has_iff _ _).1 h
      exact (hrb y v hv).1 hy
    obtain ⟨s1, s2, _⟩ := yn_stores (l := l) (n := n) (H.core "scoped" (by decide +kernel)) hi (body := .list (formValues q)) rfl
    rcases C71_returns K hrr hcore hrank hq (fun y v h => (hrb y v h).2) (n := n + 1) (by omega) with ⟨bs, h⟩ | ⟨w', e, h⟩
    · obtain ⟨w2, h2, _⟩ := s1 _ _ A.buffer A.empty h
      obtain ⟨_, text, e1, e2⟩ := yn_general H A hi (hnames _ (by decide)) hy1 hy2 hn1 hn2 h2
      exact .inl ⟨w2, _, h2, .inl ⟨_, e2 (n + 3) m⟩⟩
    · exact .inr ⟨w', e, _, n + 1, s2 _ _ h, fun y v h => (hrb y v h).1, h⟩

/-- **C94** (returning) If moreover the functions of the grammar return, no category is rewritten to itself without end, and the calls of the rules go down, then,
with enough steps and depth, there always is a right reply, or one of these exceptions: the one that the query of the question raises; the one that the function
that formats a list raises; or, if a value is asked for that is not there, "No rule found". -/
theorem C94_returns (K : KnowledgeBase W ar tables rs) (hrr : HeadsBound rs) (hcore : ∀ p ∈ coreNames, NotDefined K.others K.world p)
    (hbuf : StoresIn K.others l outputRelations K.world) (hempty : l.get K.world = SimpleStore.clear)
    (E : Oracles) (rules : List (GRule Attachment)) (ok : RulesOk rules)
    (hspec : ∀ r, Usable rules r → r.ante.predicate ≠ cRoot → SpecRule ar R kinds spec r)
    (hquest : ∀ r, Usable rules r → r.ante.predicate = cRoot → QuestionRule ar R kinds spec asks r ∧ Served K.others K.world g wg f yes no (asks r))
    (hnest : ∀ r, Usable rules r → ∀ c ∈ r.cons, c.pos = .relation → c.predicate ≠ cRoot)
    {V : Str → Nat → Value → Prop} (hV : ∀ p k v d, V p k v → V p k (unify d v)) (hret : ∀ r, Usable rules r → ReturnsRule V r)
    (wf : WellFounded (UnitStep rules)) {rank : String → Nat} (hrank : Descends (program tables rs) rank)
    (text : Str) (hl : LowerOk E (normalizeSpace text))
    {fuel' depth' : Nat} (texts : List Str) {s : Session W} (hg : s.grammar = parseHistory E fuel' depth' (Grammar.new rules) texts)
    (hw : s.world = K.world) (hder : ∃ d, WholeDerivation E rules (normalizeSpace text) d) :
    ∃ N, ∀ fuel depth n m, N ≤ fuel → N ≤ depth → N ≤ n → 1 ≤ m →
      (∃ s' reply t d, turn (solverAt K.modules n).inSession (sentencePipeline E fuel depth none (solverAt K.modules n)) wg l.inSession m text s = .ok s' reply ∧
        s'.world = K.world ∧ s'.grammar = parseHistory E fuel' depth' (Grammar.new rules) (texts ++ [normalizeSpace text]) ∧
        WholeDerivation E rules (normalizeSpace text) d ∧ TreesOf Eq [d] [t] ∧
        (∀ d', WholeDerivation E rules (normalizeSpace text) d' → ∃ t', TreesOf (fun r r' => r.equals r' = true) [d'] [t'] ∧
          (t' = t ∨ RankedBefore t t')) ∧
        RightReply (program tables rs) spec t f yes no (asks t.rule) reply) ∨
      ∃ s' e t d, turn (solverAt K.modules n).inSession (sentencePipeline E fuel depth none (solverAt K.modules n)) wg l.inSession m text s = .err s' e ∧
        WholeDerivation E rules (normalizeSpace text) d ∧ TreesOf Eq [d] [t] ∧
        (Excused (program tables rs) spec t f (asks t.rule) e ∨
          ∃ q ρ b k i w', V cRoot i ((asks t.rule).composed ρ (.list (formValues q))) ∧ FormsOk ar q (fun _ => False) ∧
            (∀ x v, b.get x = some v → x ∉ formVars q) ∧ K.askForms k q b = .err w' e) := by
  obtain ⟨N, t, rest, c0, d, hp, hc1, hc2, hd, htree⟩ := first_tree ok wf hl hder
  obtain ⟨cat, cs, form, r, rfl, hu, hur, hcne, hts⟩ := question_tree (P := program tables rs) ok hspec hnest hc1 hc2 hd htree
  obtain ⟨hq, hserved⟩ := hquest r hu hur
  obtain ⟨g', ⟨roots, c⟩, hcomp, hval⟩ := sentence_composes hV ok hret (fun r hr => by
    by_cases h : r.ante.predicate = cRoot
    · exact ⟨(hquest r hr h).1.noExec, (hquest r hr h).1.noDialog⟩
    · exact ⟨(hspec r hr h).noExec, (hspec r hr h).noDialog⟩) hc2 hd htree hcne s.gen
  obtain ⟨i1, i2, ρ, q, hsem, hb, f1, f2, f3, f4, _⟩ := composed_question hbuf hempty hq hcne hts hcomp
  refine ⟨max N (formsDepth rank q + 4), fun fuel depth n m hf hdp hn hm => ?_⟩
  have hx : (solverAt K.modules n).solve (.list []) [] K.world = .ok K.world (.rows [[]]) := by
    obtain ⟨n, rfl⟩ : ∃ k, n = k + 1 := ⟨n - 1, by omega⟩
    rfl
  have hp' : (basicParse E fuel depth s.grammar text).1 = .ok (.node cat cs form r :: rest, .none) := by
    rw [hg, C33_no_memory_block]
    exact hp fuel depth (by omega) (by omega)
  have hforms : composerForms none c.sem roots s.world = .ok K.world [("Semantics", c.sem)] := by rw [hw]; rfl
  obtain ⟨o1, o2⟩ := enter_query (optimizer := none) (api := solverAt K.modules n) hp' hcomp i1 i2 hforms hx
  simp only [ComposerProduct.lastIteration, List.foldl_cons, List.foldl_nil] at o1 o2
  rcases composed_returns K hrr hcore hrank (t := .node cat cs form r) f1 f2 f4 hserved hb (n := n) (m := m) (by omega) hm with
    ⟨w', out, h1, h2⟩ | ⟨w', e, b, k, h1, h2, h3⟩
  · obtain ⟨st, hst⟩ := o1 _ _ (by rw [hsem]; exact h1)
    have hworld : st.2.world = w' := by
      rcases (enter_sentence hst).2 with ⟨e, hp2, _⟩ | ⟨t2, rest2, g2, roots2, c2, w1, w2, w3, forms2, o2, out2, hp2, hcomp2, hforms2, hwr, hexec, hsolve, _⟩
      · rw [hp'] at hp2; cases hp2
      · rw [hp'] at hp2
        cases hp2
        rw [hcomp] at hcomp2
        cases hcomp2
        rw [hforms] at hforms2
        cases hforms2
        rw [i1] at hwr
        cases hwr
        rw [i2, hx] at hexec
        cases hexec
        simp only [ComposerProduct.lastIteration, List.foldl_cons, List.foldl_nil] at hsolve
        rw [hsem, h1] at hsolve
        cases hsolve
        rfl
    have hturn : turn (solverAt K.modules n).inSession (sentencePipeline E fuel depth none (solverAt K.modules n)) wg l.inSession m text s =
        inWorld (generateOutput (solverAt K.modules n) wg l m) st.2 := by
      simp only [turn, hst, generateOutput_inSession]
    rcases h2 with ⟨reply, h2⟩ | ⟨w'', e, h2, h3⟩
    · have ht : turn (solverAt K.modules n).inSession (sentencePipeline E fuel depth none (solverAt K.modules n)) wg l.inSession m text s =
          .ok { st.2 with world := K.world } reply := by
        rw [hturn]
        exact inWorld_ok.2 ⟨_, by rw [hworld]; exact h2, rfl⟩
      obtain ⟨r1, r2, t, d, r3, r4, r5, r6⟩ := C94_reply K hrr hcore hbuf hempty E rules ok hspec hquest hnest text hl fuel depth n m texts hg hw hder ht
      exact .inl ⟨_, _, t, d, ht, r1, r2, r3, r4, r5, r6⟩
    · refine .inr ⟨{ st.2 with world := w'' }, e, _, d, ?_, ⟨c0, hc1, hc2, hd⟩, htree, .inl h3⟩
      rw [hturn]
      simp only [inWorld, hworld, h2]
  · obtain ⟨st, hst⟩ := o2 _ _ (by rw [hsem]; exact h1)
    refine .inr ⟨st.2, e, _, d, by simp only [turn, hst], ⟨c0, hc1, hc2, hd⟩, htree, .inr ⟨q, ρ, b, k, r.ante.args.length, w', ?_, f2.ok, h2, h3⟩⟩
    rw [hsem] at hval
    rw [← hur]
    exact hval

/-- **C94** (dialogs) If a test of a dialog passes, in which all questions can be derived, then each of the expected replies is right, for a tree of its
question. -/
theorem C94_dialog (K : KnowledgeBase W ar tables rs) (hrr : HeadsBound rs) (hcore : ∀ p ∈ coreNames, NotDefined K.others K.world p)
    (hbuf : StoresIn K.others l outputRelations K.world) (hempty : l.get K.world = SimpleStore.clear)
    (E : Oracles) (rules : List (GRule Attachment)) (ok : RulesOk rules)
    (hspec : ∀ r, Usable rules r → r.ante.predicate ≠ cRoot → SpecRule ar R kinds spec r)
    (hquest : ∀ r, Usable rules r → r.ante.predicate = cRoot → QuestionRule ar R kinds spec asks r ∧ Served K.others K.world g wg f yes no (asks r))
    (hnest : ∀ r, Usable rules r → ∀ c ∈ r.cons, c.pos = .relation → c.predicate ≠ cRoot) (fuel depth n m : Nat) {fuel' depth' : Nat} :
    ∀ (tests : List (Str × Value)) (texts : List Str) {s s' : Session W}, s.grammar = parseHistory E fuel' depth' (Grammar.new rules) texts →
    s.world = K.world → (∀ p ∈ tests, LowerOk E (normalizeSpace p.1) ∧ ∃ d, WholeDerivation E rules (normalizeSpace p.1) d) →
    doRun (solverAt K.modules n).inSession (sentencePipeline E fuel depth none (solverAt K.modules n)) wg l.inSession m tests s = .ok s' () →
    s'.world = K.world ∧ ∀ p ∈ tests, ∃ t d, WholeDerivation E rules (normalizeSpace p.1) d ∧ TreesOf Eq [d] [t] ∧
      (∀ d', WholeDerivation E rules (normalizeSpace p.1) d' → ∃ t', TreesOf (fun r r' => r.equals r' = true) [d'] [t'] ∧
        (t' = t ∨ RankedBefore t t')) ∧
      RightReply (program tables rs) spec t f yes no (asks t.rule) p.2
  | [], texts, s, s', _, hw, _, h => by
    cases h
    exact ⟨hw, by simp⟩
  | (text, expected) :: tests, texts, s, s', hg, hw, hall, h => by
    obtain ⟨hl, hd⟩ := hall _ List.mem_cons_self
    simp only [doRun, M.bind_eq_ok] at h
    obtain ⟨s1, output, h1, h2⟩ := h
    obtain ⟨k1, k2, t, d, k3⟩ := C94_reply K hrr hcore hbuf hempty E rules ok hspec hquest hnest text hl fuel depth n m texts hg hw hd h1
    split at h2
    · rename_i he
      subst he
      obtain ⟨r1, r2⟩ := C94_dialog K hrr hcore hbuf hempty E rules ok hspec hquest hnest fuel depth n m tests _ k2 k1
        (fun p hp => hall p (List.mem_cons_of_mem _ hp)) h2
      refine ⟨r1, fun p hp => ?_⟩
      rcases List.mem_cons.1 hp with rfl | hp
      · exact ⟨t, d, k3⟩
      · exact r2 p hp
    · cases h2

end

/-! ### An example: three kinds of questions about parents and children -/

namespace Ex

def joinList : List Value → Except Err Value
  | [.list nbar, .list vp] => .ok (.list [.tuple [.str "intent_list", .rvar "E1", .list (nbar ++ vp)]])
  | _ => .error .typeError
def askWhether : List Value → Except Err Value
  | [np, .list vp] => (applyTemplate np [vp]).map fun us => .list [.tuple [.str "intent_yn", .list us]]
  | _ => .error .typeError
def askOne : List Value → Except Err Value
  | [.list nbar] => .ok (.list [.tuple [.str "intent_value", .rvar "E1", .list nbar]])
  | _ => .error .typeError

/-- `s(E1) -> 'which' nbar(E1) vp(E1)`, `s(E1) -> 'does' np(E1) vp(E1)` and `s(E1) -> 'find' nbar(E1)`, after
`tests/integration/chat80/read_grammar.py:13,74`. -/
def ruleWhichList := kinRule (rel cRoot [cE1]) [exW ['w', 'h', 'i', 'c', 'h'], exSep, rel cNbar [cE1], exSep, rel cVp [cE1]] joinList
def ruleDoes := kinRule (rel cRoot [cE1]) [exW ['d', 'o', 'e', 's'], exSep, rel cNp [cE1], exSep, rel cVp [cE1]] askWhether
def ruleFind := kinRule (rel cRoot [cE1]) [exW ['f', 'i', 'n', 'd'], exSep, rel cNbar [cE1]] askOne

def kinRest : List (GRule Attachment) :=
  [ruleVp, ruleTv, ruleNp, ruleQnp, ruleNbar, ruleEvery, ruleNumeral, ruleTwo, ruleThree, ruleParent, ruleChildren]

def typedGrammar : List (GRule Attachment) := ruleWhichList :: ruleDoes :: ruleFind :: kinRest

def typedSpec (r : GRule Attachment) (ws : List Value) : RuleParts :=
  if r.cons = ruleWhichList.cons then .parts [] [.app 2 [], .app 4 []]
  else if r.cons = ruleDoes.cons then .parts [] [.app 2 [[.app 4 []]]]
  else if r.cons = ruleFind.cons then .parts [] [.app 2 []]
  else kinSpec r ws

def typedAsks (r : GRule Attachment) : Asked :=
  if r.cons = ruleWhichList.cons then .list "E1" else if r.cons = ruleDoes.cons then .yesNo else .value "E1"

theorem typed_variants {r : GRule Attachment} (h : r ∈ typedGrammar) : ruleVariants r = [r] := by
  apply C36_no_optional
  simp only [typedGrammar, kinRest, List.mem_cons, List.not_mem_nil, or_false] at h
  rcases h with rfl | rfl | rfl | rfl | rfl | rfl | rfl | rfl | rfl | rfl | rfl | rfl | rfl | rfl <;> decide

theorem typed_usable {r : GRule Attachment} (h : Usable typedGrammar r) : r ∈ typedGrammar := by
  obtain ⟨r0, h0, hv⟩ := h
  rw [typed_variants h0, List.mem_singleton] at hv
  subst hv
  exact h0

theorem typed_spec (r : GRule Attachment) (h : Usable typedGrammar r) (hne : r.ante.predicate ≠ cRoot) : SpecRule kinAr kinSlots kinKinds typedSpec r := by
  have hm := typed_usable h
  have hk : r ∈ kinRest := by
    simp only [typedGrammar, List.mem_cons] at hm
    rcases hm with rfl | rfl | rfl | hm
    · exact absurd rfl hne
    · exact absurd rfl hne
    · exact absurd rfl hne
    · exact hm
  have hcons : ∀ r ∈ kinRest, r.cons ≠ ruleWhichList.cons ∧ r.cons ≠ ruleDoes.cons ∧ r.cons ≠ ruleFind.cons := by decide +kernel
  obtain ⟨n1, n2, n3⟩ := hcons r hk
  have hs := kin_spec r ⟨r, List.mem_cons_of_mem _ hk, by rw [typed_variants hm]; simp⟩
  exact ⟨hs.names, hs.nodup, fun ws v hv e => hs.value ws v hv (by simpa [typedSpec, n1, n2, n3] using e),
    fun ws ns e hv e' => hs.parts ws ns e hv (by simpa [typedSpec, n1, n2, n3] using e'), hs.noExec, hs.noDialog⟩

theorem typed_rulesOk : RulesOk typedGrammar := by
  constructor <;> decide +kernel

theorem typed_nest (r : GRule Attachment) (h : Usable typedGrammar r) : ∀ c ∈ r.cons, c.pos = .relation → c.predicate ≠ cRoot := by
  have : ∀ r ∈ typedGrammar, ∀ c ∈ r.cons, c.pos = .relation → c.predicate ≠ cRoot := by decide +kernel
  exact this r (typed_usable h)

theorem quest_which : QuestionRule kinAr kinSlots kinKinds typedSpec typedAsks ruleWhichList where
  names := by decide +kernel
  nodup := by decide +kernel
  parts := fun ws _ => by
    refine ⟨⟨[.any], [true], [], false⟩, _, rfl, ⟨rfl, by decide⟩, ⟨by decide +kernel, rfl, by decide +kernel, by decide +kernel,
      by decide +kernel, by decide +kernel, kidsCheck_ok (by decide +kernel), by decide +kernel, by decide +kernel⟩, ?_, by decide +kernel, ?_⟩
    · intro x hx
      cases hx
      decide +kernel
    intro f hf vs us s hl he hfs
    cases hf
    match vs, hl with
    | [v0, v1, v2, v3, v4], _ =>
      change joinList [v2, v4] = _ at hfs
      cases v2 <;> try (cases hfs; done)
      cases v4 <;> try (cases hfs; done)
      cases hfs
      simp only [evalAll, evalPart, evalMany, List.getD, List.getElem?_cons_zero, List.getElem?_cons_succ, Option.getD_some, atomsOf, List.isEmpty_nil,
        if_true, List.append_nil, Except.ok.injEq] at he
      rw [← he]; rfl
  noExec := rfl
  noDialog := fun _ => rfl

theorem quest_does : QuestionRule kinAr kinSlots kinKinds typedSpec typedAsks ruleDoes where
  names := by decide +kernel
  nodup := by decide +kernel
  parts := fun ws _ => by
    refine ⟨⟨[.new], [false], [], false⟩, _, rfl, ⟨rfl, by decide⟩, ⟨by decide +kernel, rfl, by decide +kernel, by decide +kernel,
      by decide +kernel, by decide +kernel, kidsCheck_ok (by decide +kernel), by decide +kernel, by decide +kernel⟩, ?_, by decide +kernel, ?_⟩
    · intro x hx
      cases hx
    intro f hf vs us s hl he hfs
    cases hf
    match vs, hl with
    | [v0, v1, v2, v3, v4], _ =>
      change askWhether [v2, v4] = _ at hfs
      cases v4 <;> try (cases hfs; done)
      obtain ⟨a, ha, rfl⟩ := except_map_ok hfs
      simp only [evalAll, evalPart, evalMany, List.getD, List.getElem?_cons_zero, List.getElem?_cons_succ, Option.getD_some, atomsOf, List.isEmpty_nil,
        List.isEmpty_cons, if_true, Bool.false_eq_true, if_false, List.append_nil, ha, Except.ok.injEq] at he
      rw [← he]; rfl
  noExec := rfl
  noDialog := fun _ => rfl

theorem quest_find : QuestionRule kinAr kinSlots kinKinds typedSpec typedAsks ruleFind where
  names := by decide +kernel
  nodup := by decide +kernel
  parts := fun ws _ => by
    refine ⟨⟨[.any], [true], [], true⟩, _, rfl, ⟨rfl, by decide⟩, ⟨by decide +kernel, rfl, by decide +kernel, by decide +kernel,
      by decide +kernel, by decide +kernel, kidsCheck_ok (by decide +kernel), by decide +kernel, by decide +kernel⟩, ?_, by decide +kernel, ?_⟩
    · intro x hx
      cases hx
      decide +kernel
    intro f hf vs us s hl he hfs
    cases hf
    match vs, hl with
    | [v0, v1, v2], _ =>
      change askOne [v2] = _ at hfs
      cases v2 <;> try (cases hfs; done)
      cases hfs
      simp only [evalAll, evalPart, evalMany, List.getD, List.getElem?_cons_zero, List.getElem?_cons_succ, Option.getD_some, atomsOf, List.isEmpty_nil,
        if_true, List.append_nil, Except.ok.injEq] at he
      rw [← he]; rfl
  noExec := rfl
  noDialog := fun _ => rfl

/-- The parents and children, the intents, and the output buffer. -/
def kinHome : Home := (kinKB.world, intentsState, SimpleStore.clear)

theorem kinHome_ok : ProgramOk Home kinAr [kinTables, [], []] kinRules := by
  refine ⟨⟨by decide, by decide, ?_⟩, ?_, ?_, kin_ok.rulesOk⟩
  · intro p f h
    have hne : p ≠ "have" ∧ p ≠ "parent" ∧ p ≠ "child" := by
      refine ⟨?_, ?_, ?_⟩ <;> rintro rfl <;> simp [coreTable, Dict.get] at h
    simp [kinAr, hne.1, hne.2.1, hne.2.2]
  · intro p k h
    rcases kin_ok.defined p k h with ⟨db, hdb, h⟩ | h
    · simp only [List.mem_singleton] at hdb
      subst hdb
      exact .inl ⟨kinTables, by simp, h⟩
    · exact .inr h
  · intro p k h db hdb rows hrows
    simp only [List.mem_cons, List.not_mem_nil, or_false] at hdb
    rcases hdb with rfl | rfl | rfl
    · exact kin_ok.rowsOk p k h kinTables (by simp) rows hrows
    · simp [Dict.get] at hrows
    · simp [Dict.get] at hrows

theorem kin_pred {p : String} {k : Nat} (h : kinAr p = some k) : p = "have" ∨ p = "parent" ∨ p = "child" := by
  simp only [kinAr] at h
  split at h
  · exact .inl (by assumption)
  · split at h
    · exact .inr (.inl (by assumption))
    · split at h
      · exact .inr (.inr (by assumption))
      · simp at h

def kinHomeKB : KnowledgeBase Home kinAr [kinTables, [], []] kinRules where
  lens := Lens.fst _ _
  world := kinHome
  before := [tableModule Home kinTables]
  after := [inferenceModule homeIntents, outputBuffer homeBuffer]
  dbs := [kinTables]
  dbs' := [[], []]
  split := rfl
  facts := ⟨tableModule_fact _ _ _, trivial⟩
  facts' := by
    refine ⟨fun p k h => ?_, fun p k h => ?_, trivial⟩ <;> rcases kin_pred h with rfl | rfl | rfl <;> rfl
  ok := kinHome_ok
  inserted := kinKB.inserted

theorem kinHome_undefined {p : String} (h1 : (tableModule Home kinTables).relations kinHome p = none)
    (h2 : (inferenceModule (Lens.fst InfState (InfState × SimpleStore))).relations kinHome p = none)
    (h3 : (inferenceModule homeIntents).relations kinHome p = none) (h4 : (outputBuffer homeBuffer).relations kinHome p = none) :
    NotDefined kinHomeKB.others kinHome p := by
  intro m hm
  simp only [KnowledgeBase.others, kinHomeKB, List.mem_append, List.mem_cons, List.not_mem_nil, or_false] at hm
  rcases hm with rfl | rfl | rfl | rfl <;> assumption

theorem kinHome_core : ∀ p ∈ coreNames, NotDefined kinHomeKB.others kinHomeKB.world p := by
  intro p hp
  simp only [coreNames, List.mem_cons, List.not_mem_nil, or_false] at hp
  rcases hp with rfl | rfl | rfl | rfl | rfl | rfl | rfl | rfl | rfl | rfl | rfl | rfl | rfl <;> exact kinHome_undefined rfl rfl rfl rfl

theorem kinHome_stores : StoresIn kinHomeKB.others homeBuffer outputRelations kinHome where
  store := by
    intro s m hm
    simp only [KnowledgeBase.others, kinHomeKB, List.mem_append, List.mem_cons, List.not_mem_nil, or_false] at hm
    rcases hm with rfl | rfl | rfl | rfl <;> rfl
  rels := by
    intro s p cs h
    have hp : p ∈ outputRelations.map Prod.fst := List.mem_map.2 ⟨_, Dict.mem_of_get h, rfl⟩
    simp only [outputRelations, List.map_cons, List.map_nil, List.mem_cons, List.not_mem_nil, or_false] at hp
    rcases hp with rfl | rfl | rfl | rfl | rfl | rfl | rfl <;> (cases h; rfl)

/-- A list is not formatted. -/
def asList : List Value → Except Err Value
  | [.list els] => .ok (.list els)
  | _ => .error .typeError

/-- The write grammar of `homeDicts`. -/
def typedWrite : Grammar WriteSem := homeWrite whoOracles.ruleHash asList

theorem typed_served (a : Asked) : Served kinHomeKB.others kinHomeKB.world homeIntents.get typedWrite asList ['y', 'e', 's'] ['n', 'o'] a := by
  obtain ⟨r1, r2, r3, r4⟩ := homeWrite_rules whoOracles.ruleHash asList
  obtain ⟨s1, s2, s3⟩ := say_rules whoOracles.ruleHash asList
  cases a with
  | list x => exact ⟨⟨rfl, rfl⟩, kinHome_undefined rfl rfl rfl rfl, _, r4, s3⟩
  | value x =>
    refine ⟨⟨rfl, rfl⟩, kinHome_undefined rfl rfl rfl rfl, ⟨_, r3, s2⟩, fun r hr => ?_⟩
    have hr : r ∈ [sayRule whoOracles.ruleHash "ok" ['O', 'K'], sayRule whoOracles.ruleHash "yes" ['y', 'e', 's'],
      sayRule whoOracles.ruleHash "no" ['n', 'o'], sayValue whoOracles.ruleHash, sayList whoOracles.ruleHash asList] := hr
    simp only [List.mem_cons, List.not_mem_nil, or_false] at hr
    rcases hr with rfl | rfl | rfl | rfl | rfl
    · exact ⟨_, _, rfl⟩
    · exact ⟨_, _, rfl⟩
    · exact ⟨_, _, rfl⟩
    · exact ⟨_, _, rfl⟩
    · exact ⟨_, _, rfl⟩
  | yesNo => exact ⟨⟨rfl, rfl⟩, ⟨_, r1, s1 _ _⟩, _, r2, s1 _ _⟩

theorem typed_quest (r : GRule Attachment) (h : Usable typedGrammar r) (hr : r.ante.predicate = cRoot) :
    QuestionRule kinAr kinSlots kinKinds typedSpec typedAsks r ∧
    Served kinHomeKB.others kinHomeKB.world homeIntents.get typedWrite asList ['y', 'e', 's'] ['n', 'o'] (typedAsks r) := by
  refine ⟨?_, typed_served _⟩
  have hm := typed_usable h
  simp only [typedGrammar, List.mem_cons] at hm
  rcases hm with rfl | rfl | rfl | hm
  · exact quest_which
  · exact quest_does
  · exact quest_find
  · have : ∀ r ∈ kinRest, r.ante.predicate ≠ cRoot := by decide +kernel
    exact absurd hr (this r hm)

/-- Enter a text in a session that starts. -/
def typedTurn (text : Str) : Res (Session Home) Value :=
  turn (solverAt kinHomeKB.modules 12).inSession (sentencePipeline whoOracles 200 20 none (solverAt kinHomeKB.modules 12)) typedWrite homeBuffer.inSession 2 text
    ⟨Grammar.new typedGrammar, ⟨0, []⟩, kinHomeKB.world⟩

def replyOf (r : Res (Session Home) Value) : Option Value := match r with | .ok _ v => some v | _ => none

def doesText : Str := ['d', 'o', 'e', 's', ' ', 'e', 'v', 'e', 'r', 'y', ' ', 'p', 'a', 'r', 'e', 'n', 't', ' ', 'h', 'a', 's', ' ', 't', 'h', 'r', 'e', 'e', ' ', 'c', 'h', 'i', 'l', 'd', 'r', 'e', 'n']
def findText : Str := ['f', 'i', 'n', 'd', ' ', 'p', 'a', 'r', 'e', 'n', 't']

/-- A text with trees has derivations. -/
theorem typed_derivable {text : Str} (h : (match (parse whoOracles 200 20 (Grammar.new typedGrammar) (normalizeSpace text)).1 with
    | .ok (_ :: _, _) => true | _ => false) = true) : ∃ d, WholeDerivation whoOracles typedGrammar (normalizeSpace text) d := by
  cases hr : (parse whoOracles 200 20 (Grammar.new typedGrammar) (normalizeSpace text)).1 with
  | err e => rw [hr] at h; cases h
  | oof => rw [hr] at h; cases h
  | ok p =>
    match p, hr with
    | ([], _), hr => rw [hr] at h; cases h
    | (t :: ts, e), hr =>
      obtain ⟨c, d, h1, h2, h3, _⟩ := C29_derivation whoOracles typedGrammar typed_rulesOk _ (by intro i; simp [whoOracles]) 200 20 _ _ hr t List.mem_cons_self
      exact ⟨d, c, h1, h2, h3⟩

theorem typed_questions : (∃ d, WholeDerivation whoOracles typedGrammar (normalizeSpace whichText) d) ∧
    (∃ d, WholeDerivation whoOracles typedGrammar (normalizeSpace doesText) d) ∧ ∃ d, WholeDerivation whoOracles typedGrammar (normalizeSpace findText) d :=
  ⟨typed_derivable (by decide +kernel), typed_derivable (by decide +kernel), typed_derivable (by decide +kernel)⟩

/-- The run returned. -/
def isOk {S A : Type} (r : Res S A) : Bool := match r with | .ok _ _ => true | _ => false

theorem isOk_iff {S : Type} {r : Res S Unit} : isOk r = true ↔ ∃ s, r = .ok s () := by
  cases r <;> simp [isOk]

/-- The dialog. -/
def typedTests : List (Str × Value) := [(whichText, .list [.str "mary", .str "bob"]), (doesText, .str "no"), (findText, .str "mary")]

theorem typed_dialog : ∃ s', doRun (solverAt kinHomeKB.modules 12).inSession (sentencePipeline whoOracles 200 20 none (solverAt kinHomeKB.modules 12)) typedWrite
    homeBuffer.inSession 2 typedTests ⟨Grammar.new typedGrammar, ⟨0, []⟩, kinHomeKB.world⟩ = .ok s' () := by
  have h : isOk (doRun (solverAt kinHomeKB.modules 12).inSession (sentencePipeline whoOracles 200 20 none (solverAt kinHomeKB.modules 12)) typedWrite
    homeBuffer.inSession 2 typedTests ⟨Grammar.new typedGrammar, ⟨0, []⟩, kinHomeKB.world⟩) = true := by decide +kernel
  exact isOk_iff.1 h

/-- **C94** applies: the replies in the dialog are right. -/
theorem typed_right : ∀ p ∈ typedTests, ∃ t d, WholeDerivation whoOracles typedGrammar (normalizeSpace p.1) d ∧ TreesOf Eq [d] [t] ∧
    RightReply (program [kinTables, [], []] kinRules) typedSpec t asList ['y', 'e', 's'] ['n', 'o'] (typedAsks t.rule) p.2 := by
  obtain ⟨s', h⟩ := typed_dialog
  obtain ⟨_, h⟩ := C94_dialog kinHomeKB kin_heads kinHome_core kinHome_stores rfl whoOracles typedGrammar typed_rulesOk typed_spec typed_quest typed_nest
    200 20 12 2 (fuel' := 200) (depth' := 20) typedTests [] rfl rfl (fun p hp => ⟨by intro i; simp [whoOracles], by
      simp only [typedTests, List.mem_cons, List.not_mem_nil, or_false] at hp
      rcases hp with rfl | rfl | rfl
      · exact typed_questions.1
      · exact typed_questions.2.1
      · exact typed_questions.2.2⟩) h
  intro p hp
  obtain ⟨t, d, h1, h2, _, h3⟩ := h p hp
  exact ⟨t, d, h1, h2, h3⟩

theorem typed_returns (r : GRule Attachment) (h : Usable typedGrammar r) : ReturnsRule kinValues r := by
  have hm := typed_usable h
  have hv := typed_variants hm
  simp only [typedGrammar, List.mem_cons] at hm
  rcases hm with rfl | rfl | rfl | hm
  · refine ⟨joinList, rfl, fun vs hvs => ?_⟩
    obtain ⟨_, _, rfl, ⟨nbar, rfl, _⟩, _, _, rfl, ⟨vp, rfl, _⟩, rfl⟩ : ∃ v us, vs = v :: us ∧ IsAtoms v ∧ ∃ w us', us = w :: us' ∧ IsAtoms w ∧ us' = [] := hvs
    exact ⟨_, rfl, ⟨_, rfl, by simp⟩, fun atoms e => by cases e; simp⟩
  · refine ⟨askWhether, rfl, fun vs hvs => ?_⟩
    obtain ⟨np, _, rfl, hnp, _, _, rfl, ⟨vp, rfl, _⟩, rfl⟩ : ∃ v us, vs = v :: us ∧ IsTemplate [sBody] v ∧ ∃ w us', us = w :: us' ∧ IsAtoms w ∧ us' = [] := hvs
    obtain ⟨body, hb, _⟩ := apply_one (vs := vp) hnp
    exact ⟨.list [.tuple [.str "intent_yn", .list body]], by simp [askWhether, hb, Except.map], ⟨_, rfl, by simp⟩, fun atoms e => by cases e; simp⟩
  · refine ⟨askOne, rfl, fun vs hvs => ?_⟩
    obtain ⟨_, _, rfl, ⟨nbar, rfl, _⟩, rfl⟩ : ∃ v us, vs = v :: us ∧ IsAtoms v ∧ us = [] := hvs
    exact ⟨_, rfl, ⟨_, rfl, by simp⟩, fun atoms e => by cases e; simp⟩
  · exact kin_returns r ⟨r, List.mem_cons_of_mem _ hm, by rw [hv]; simp⟩

theorem typed_unit : WellFounded (UnitStep typedGrammar) := by
  refine unit_wf (fun x => if x.2.2 = .relation then (if x.1 = cNbar ∨ x.1 = cQdet then 2 else 1) else 0) ?_
  have h : ∀ r ∈ typedGrammar, ∀ v ∈ ruleVariants r, v.cons.all fun c => v.cons.length ≠ 1 ∨
      (if c.syn.2.2 = .relation then (if c.syn.1 = cNbar ∨ c.syn.1 = cQdet then 2 else 1) else 0) <
        (if v.ante.syn.2.2 = .relation then (if v.ante.syn.1 = cNbar ∨ v.ante.syn.1 = cQdet then 2 else 1) else 0) := by decide +kernel
  intro r hr v hv c hc
  have := h r hr v hv
  rw [hc] at this
  simpa using this

theorem kinHome_rank : Descends (program [kinTables, [], []] kinRules) kinRank := by
  refine .of_rank ?_
  decide +kernel

/-- **C94** (returning) applies. -/
example : ∃ N, ∀ fuel depth n m, N ≤ fuel → N ≤ depth → N ≤ n → 1 ≤ m → ∃ s',
    (∃ reply, turn (solverAt kinHomeKB.modules n).inSession (sentencePipeline whoOracles fuel depth none (solverAt kinHomeKB.modules n)) typedWrite
      homeBuffer.inSession m whichText ⟨Grammar.new typedGrammar, ⟨0, []⟩, kinHomeKB.world⟩ = .ok s' reply) ∨
    ∃ e, turn (solverAt kinHomeKB.modules n).inSession (sentencePipeline whoOracles fuel depth none (solverAt kinHomeKB.modules n)) typedWrite
      homeBuffer.inSession m whichText ⟨Grammar.new typedGrammar, ⟨0, []⟩, kinHomeKB.world⟩ = .err s' e := by
  obtain ⟨N, h⟩ := C94_returns kinHomeKB kin_heads kinHome_core kinHome_stores rfl whoOracles typedGrammar typed_rulesOk typed_spec typed_quest typed_nest
    kinValues_unify typed_returns typed_unit kinHome_rank whichText (by intro i; simp [whoOracles]) (fuel' := 20) (depth' := 20) []
    (s := ⟨Grammar.new typedGrammar, ⟨0, []⟩, kinHomeKB.world⟩) rfl rfl typed_questions.1
  refine ⟨N, fun fuel depth n m h1 h2 h3 h4 => ?_⟩
  rcases h fuel depth n m h1 h2 h3 h4 with ⟨s', reply, _, _, h, _⟩ | ⟨s', e, _, _, h, _⟩
  · exact ⟨s', .inl ⟨reply, h⟩⟩
  · exact ⟨s', .inr ⟨e, h⟩⟩

end Ex

end Verif

import Verif.EarleyDistinct
import Verif.Props.Earley
import Verif.Props.Grammar
import Verif.Props.Small

/-!
# C35, C63, C64: white space; exactly one tree for each derivation
-/

namespace Verif

variable {A : Type}

/-! ## C63 -/

/-- A tree that stands for a derivation by rules of the same syntax stands for it exactly, if it is a tree of the grammar and no two rules
have the same syntax. -/
theorem treesOf_eq {E : Oracles} {rules : List (GRule A)} (ok : RulesOk rules) {text : Str}
    (huniq : ∀ r r', Usable rules r → Usable rules r' → r.equals r' = true → r = r') {ds : List (DTree A)} {ts : List (ParseTree A)}
    (h : TreesOf (fun r r' => r.equals r' = true) ds ts) : ∀ {cs i k ds' cs' i' k'}, Derives E rules text cs i k ds →
    Derives E rules text cs' i' k' ds' → TreesOf Eq ds' ts → TreesOf Eq ds ts := by
  have hne : ∀ {r : GRule A}, Usable rules r → r.cons ≠ [] := by
    rintro r ⟨r0, h0, hv⟩
    exact ok.cons_ne r0 h0 r hv
  induction h with
  | nil => intros; exact .nil
  | @leaf c form r ds ts he _ ih =>
    intro cs i k ds' cs' i' k' hd hd' ht'
    cases hd with
    | leaf _ hd2 =>
      generalize hp : c.predicate = p at ht'
      cases ht' with
      | leaf _ ht2 =>
        cases hd' with
        | leaf _ hd2' => rw [← hp]; exact .leaf he (ih hd2 hd2' ht2)
      | node _ hcs ht2 =>
        cases hd' with
        | node hu _ hc hd2' =>
          cases hcs
          cases hcons : r.cons with
          | nil => rw [← hp]; exact .leaf he (ih hd2 hd2' ht2)
          | cons _ _ => subst_vars; rw [hcons] at hc; cases hc
  | @node rule r ch us ds ts hr hch _ ih1 ih2 =>
    intro cs i k ds' cs' i' k' hd hd' ht'
    cases hd with
    | node hu _ hc hd2 =>
      generalize hp : r.ante.predicate = p at ht'
      cases ht' with
      | leaf _ ht2 =>
        cases hch
        exfalso
        cases hcons : rule.cons with
        | nil => exact hne hu hcons
        | cons _ _ => rw [hcons] at hc; cases hc
      | node e hcs ht2 =>
        subst e
        cases hd' with
        | node hu' _ hc' hd2' =>
          rw [← hp]
          exact .node (huniq _ _ hu hu' hr) (ih1 hc hc' hcs) (ih2 hd2 hd2' ht2)

/-- **C63** (part) If no two rules have the same syntax, every derivation of the text has a tree, made of exactly the rules of the
derivation. Missing: rules with the same syntax, see `C63_same_syntax_lost`. -/
theorem C63_exact_partial (E : Oracles) (rules : List (GRule A)) (ok : RulesOk rules)
    (huniq : ∀ r r', Usable rules r → Usable rules r' → r.equals r' = true → r = r') (text : Str) (hl : LowerOk E text) (fuel depth : Nat)
    (trees : List (ParseTree A)) (e : ParseError) (h : (parse E fuel depth (Grammar.new rules) text).1 = .ok (trees, e))
    (c : Constituent) (hc : c.predicate = cRoot) (hp : c.pos = .relation) (d : DTree A) (hd : Derives E rules text [c] 0 text.length [d]) :
    ∃ t ∈ trees, TreesOf Eq [d] [t] := by
  obtain ⟨t, ht, hto⟩ := C30_complete E rules ok text hl fuel depth trees e h c hc hp d hd
  obtain ⟨c', d', _, _, hd', hto'⟩ := C29_derivation E rules ok text hl fuel depth trees e h t ht
  exact ⟨t, ht, treesOf_eq ok huniq hto hd hd' hto'⟩

example : ∀ r r', Usable exRules r → Usable exRules r' → r.equals r' = true → r = r' := by
  have h : ∀ r0 ∈ exRules, ∀ r ∈ ruleVariants r0, ∀ r0' ∈ exRules, ∀ r' ∈ ruleVariants r0', r.equals r' = true → r = r' := by
    decide +kernel
  rintro r r' ⟨r0, h0, h1⟩ ⟨r0', h0', h1'⟩
  exact h r0 h0 r h1 r0' h0' r' h1'

/-- Two rules with the same syntax and different meanings. -/
def twoMeanings : List (GRule Nat) :=
  [GRule.new exOracles.ruleHash exS [exW ['a']] (.user 1), GRule.new exOracles.ruleHash exS [exW ['a']] (.user 2)]

/-- What is attached to the rules at the roots. -/
def rootSems (x : Out (List (ParseTree Nat) × ParseError)) : Option (List (RuleSem Nat)) :=
  match x with
  | .ok (trees, _) => some (trees.map fun t => t.rule.sem)
  | _ => none

/-- **C63** False as stated: of two rules with the same syntax only the first is used; the second meaning of the sentence is lost. -/
theorem C63_same_syntax_lost : RulesOk twoMeanings ∧ LowerOk exOracles ['a'] ∧
    ∃ trees e d, (parse exOracles 10 10 (Grammar.new twoMeanings) ['a']).1 = .ok (trees, e) ∧
      Derives exOracles twoMeanings ['a'] [exS] 0 1 [d] ∧ ∀ t ∈ trees, ¬ TreesOf Eq [d] [t] := by
  refine ⟨by constructor <;> decide +kernel, exLower_ok _, ?_⟩
  have hs : rootSems (parse exOracles 10 10 (Grammar.new twoMeanings) ['a']).1 = some [.user 1] := by decide +kernel
  cases hp : (parse exOracles 10 10 (Grammar.new twoMeanings) ['a']).1 with
  | err e => rw [hp] at hs; simp [rootSems] at hs
  | oof => rw [hp] at hs; simp [rootSems] at hs
  | ok p =>
    obtain ⟨trees, e⟩ := p
    rw [hp] at hs
    simp only [rootSems, Option.some.injEq] at hs
    refine ⟨trees, e, .node (GRule.new exOracles.ruleHash exS [exW ['a']] (.user 2)) [.leaf (exW ['a']) ['a']], rfl, ?_, ?_⟩
    · refine .node (j := 1) ⟨GRule.new exOracles.ruleHash exS [exW ['a']] (.user 2), by simp [twoMeanings], ?_⟩ (by decide +kernel)
        (.leaf ⟨by decide, by decide, .inl ⟨rfl, rfl, by decide +kernel⟩⟩ (.nil 1)) (.nil 1)
      decide +kernel
    · intro t ht hto
      have : t.rule.sem ∈ trees.map fun t => t.rule.sem := List.mem_map.2 ⟨t, ht, rfl⟩
      rw [hs] at this
      cases hto with
      | node e _ _ =>
        subst e
        simp [ParseTree.rule, GRule.new] at this

/-! ## C64 -/

/-- **C64** No tree is returned twice by the parser. -/
theorem C64_distinct (E : Oracles) (rules : List (GRule A)) (ok : RulesOk rules) (text : Str) (hl : LowerOk E text) (fuel depth : Nat)
    (trees : List (ParseTree A)) (e : ParseError) (h : (parse E fuel depth (Grammar.new rules) text).1 = .ok (trees, e)) : trees.Nodup := by
  obtain ⟨chart, f, hr, _⟩ := parse_ok ok hl h
  exact roots_nodup ok hl f hr

/-- **C64** Nor is one listed twice after the ranking. -/
theorem C64_distinct_ranked (E : Oracles) (rules : List (GRule A)) (ok : RulesOk rules) (text : Str)
    (hl : LowerOk E (normalizeSpace text)) (fuel depth : Nat) (trees : List (ParseTree A)) (e : ParseError)
    (h : (basicParse E fuel depth (Grammar.new rules) text).1 = .ok (trees, e)) : trees.Nodup := by
  simp only [basicParse] at h
  cases hp : (parse E fuel depth (Grammar.new rules) (normalizeSpace text)).1 with
  | err e => rw [hp] at h; simp [Out.bind] at h
  | oof => rw [hp] at h; simp [Out.bind] at h
  | ok p =>
    rw [hp] at h
    simp only [Out.bind, Out.ok.injEq, Prod.mk.injEq] at h
    obtain ⟨h1, _⟩ := h
    have := C64_distinct E rules ok _ hl fuel depth p.1 p.2 (by rw [hp])
    rw [← h1]
    exact (List.Perm.nodup_iff (C38_permutation p.1)).2 this

example : ∃ trees e, (parse exOracles 20 8 (Grammar.new exRules) ['a']).1 = .ok (trees, e) ∧ trees.length = 2 := by
  have h : (match (parse exOracles 20 8 (Grammar.new exRules) ['a']).1 with | .ok p => p.1.length | _ => 0) = 2 := by
    decide +kernel
  cases hp : (parse exOracles 20 8 (Grammar.new exRules) ['a']).1 with
  | err e => rw [hp] at h; simp at h
  | oof => rw [hp] at h; simp at h
  | ok p => rw [hp] at h; exact ⟨p.1, p.2, rfl, h⟩

/-! ## C35 -/

/-- **C35** Texts that differ only in the white space between their words get the same result from the parser, whatever the grammar, and
leave the same grammar. -/
theorem C35_parsed (E : Oracles) (fuel depth : Nat) (g : Grammar A) (w0 : Str) (words ss ss' : List Str)
    (hl : ss.length = words.length) (hl' : ss'.length = words.length)
    (h : WordsOk w0 (ss.zip words)) (h' : WordsOk w0 (ss'.zip words)) :
    basicParse E fuel depth g (weave w0 (ss.zip words)) = basicParse E fuel depth g (weave w0 (ss'.zip words)) := by
  simp only [basicParse]
  rw [C35_same_words (fun t => t) w0 words ss ss' hl hl' h h']

/-- The parser sees single spaces: a tab is not told from a space. -/
example : weave ['a'] ([['\t', ' ']].zip [['b']]) = ['a', '\t', ' ', 'b'] ∧ weave ['a'] ([[' ']].zip [['b']]) = ['a', ' ', 'b'] ∧
    WordsOk ['a'] ([['\t', ' ']].zip [['b']]) ∧ WordsOk ['a'] ([[' ']].zip [['b']]) :=
  ⟨by decide, by decide, ⟨by decide, by simp, by decide, by simp, by simp [WordsOk]; decide⟩,
    ⟨by decide, by simp, by decide, by simp, by simp [WordsOk]; decide⟩⟩

end Verif

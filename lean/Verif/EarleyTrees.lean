import Verif.EarleyLemmas

/-!
# Parse trees and derivations
-/

namespace Verif

variable {A : Type}

/-- Two lists are related element by element. -/
inductive AllRel {α β : Type} (R : α → β → Prop) : List α → List β → Prop
  | nil : AllRel R [] []
  | cons {a b as bs} : R a b → AllRel R as bs → AllRel R (a :: as) (b :: bs)

theorem AllRel.imp {α β : Type} {R S : α → β → Prop} (h : ∀ a b, R a b → S a b) {as : List α} {bs : List β} (r : AllRel R as bs) :
    AllRel S as bs := by
  induction r with
  | nil => exact .nil
  | cons hr _ ih => exact .cons (h _ _ hr) ih

theorem AllRel.length_eq {α β : Type} {R : α → β → Prop} {as : List α} {bs : List β} (r : AllRel R as bs) : as.length = bs.length := by
  induction r with
  | nil => rfl
  | cons _ _ ih => simp [ih]

theorem AllRel.append {α β : Type} {R : α → β → Prop} {as as' : List α} {bs bs' : List β} (r : AllRel R as bs) (r' : AllRel R as' bs') :
    AllRel R (as ++ as') (bs ++ bs') := by
  induction r with
  | nil => exact r'
  | cons h _ ih => exact .cons h ih

/-! ## Specification: derivations -/

/-- A derivation tree: a word or the application of a rule. -/
inductive DTree (A : Type) where
  | leaf (c : Constituent) (form : Str)
  | node (rule : GRule A) (children : List (DTree A))

/-- The constituent `c` reads `form` in the text from `i` to `j`: a word is compared with the lower-cased text, a regular expression may
take any non-empty part of what it matches. -/
def Token (E : Oracles) (text : Str) (c : Constituent) (i j : Nat) (form : Str) : Prop :=
  j = i + form.length ∧ j ≤ text.length ∧
  ((c.pos = .word ∧ form = c.predicate ∧ (E.lower (text.drop i)).take form.length = form) ∨
   (c.pos = .regexp ∧ form ≠ [] ∧ ∃ m, E.regex c.predicate (text.drop i) = some m ∧ form.length ≤ m ∧
     form = (text.drop i).take form.length))

/-- A rule of the grammar made of these rules: a variant of one of them. -/
def Usable (rules : List (GRule A)) (r : GRule A) : Prop := ∃ r0 ∈ rules, r ∈ ruleVariants r0

/-- The text from `i` to `k` is derived from the constituents, by the given derivation trees. -/
inductive Derives (E : Oracles) (rules : List (GRule A)) (text : Str) : List Constituent → Nat → Nat → List (DTree A) → Prop
  | nil (i) : Derives E rules text [] i i []
  | leaf {c cs i j k form ds} : Token E text c i j form → Derives E rules text cs j k ds →
      Derives E rules text (c :: cs) i k (.leaf c form :: ds)
  | node {c cs i j k r ds es} : Usable rules r → r.ante.equals c = true → Derives E rules text r.cons i j ds →
      Derives E rules text cs j k es → Derives E rules text (c :: cs) i k (.node r ds :: es)

/-- What is attached to a leaf: its text, if it was read by a regular expression; nothing for a word. -/
def leafAttached (c : Constituent) (form : Str) : RuleSem A := if c.pos = .regexp then .word form else .none

/-- Parse trees represent derivation trees; `R` says how the rules in both may differ. -/
inductive TreesOf (R : GRule A → GRule A → Prop) : List (DTree A) → List (ParseTree A) → Prop
  | nil : TreesOf R [] []
  | leaf {c form r ds ts} : r.ante.equals c = true ∧ r.sem = leafAttached c form → TreesOf R ds ts →
      TreesOf R (.leaf c form :: ds) (.node c.predicate [] form r :: ts)
  | node {rule r cs us ds ts} : R rule r → TreesOf R cs us → TreesOf R ds ts →
      TreesOf R (.node rule cs :: ds) (.node r.ante.predicate us [] r :: ts)

/-- Conditions on the rules given by the user: no variant without consequents, no empty words, antecedents are relations, the names
`delta` and `gamma` are not used for relations, and no argument is named `terminal`. -/
structure RulesOk (rules : List (GRule A)) : Prop where
  cons_ne : ∀ r ∈ rules, ∀ v ∈ ruleVariants r, v.cons ≠ []
  word_ne : ∀ r ∈ rules, ∀ c ∈ r.cons, c.pos = .word → c.predicate ≠ []
  relation : ∀ r ∈ rules, r.ante.pos = .relation
  not_delta : ∀ r ∈ rules, r.ante.predicate ≠ cDelta
  reserved : ∀ r ∈ rules, ∀ c ∈ r.cons, c.pos = .relation → c.predicate ≠ cDelta ∧ c.predicate ≠ cGamma
  terminal : ∀ r ∈ rules, ∀ c ∈ r.cons, c.args.head? ≠ some cTerminal

/-! ## The grammar with its start rules -/

theorem ruleVariants_deltaRule (E : Oracles) (c : Nat) : ruleVariants (deltaRule (A := A) E c) = [deltaRule E c] := by
  apply C36_no_optional
  intro x hx
  simp only [deltaRule, GRule.new, List.mem_singleton] at hx
  subst hx; rfl

theorem addStartRules_findRules (E : Oracles) (g : Grammar A) (p : Str) (n : Nat) :
    (addStartRules E g).findRules p n =
      g.findRules p n ++ (if p = cDelta ∧ n = 1 then (g.findArgumentCounts cRoot).map (deltaRule E) else []) := by
  have h : addStartRules E g = ((g.findArgumentCounts cRoot).map (deltaRule E)).foldl Grammar.addRule g := by
    simp [addStartRules, List.foldl_map]
  rw [h, C37_lookup_after]
  congr 1
  have h2 : ∀ l : List Nat, (l.map (deltaRule (A := A) E)).flatMap ruleVariants = l.map (deltaRule E) := by
    intro l
    induction l with
    | nil => rfl
    | cons c l ih =>
      simp only [List.map_cons, List.flatMap_cons, ih, ruleVariants_deltaRule]
      rfl
  by_cases hp : p = cDelta ∧ n = 1
  · rw [if_pos hp, List.filter_eq_self.2, h2]
    intro r hr
    obtain ⟨c, _, rfl⟩ := List.mem_map.1 hr
    simp [deltaRule, GRule.new, deltaC, hp]
  · rw [if_neg hp, List.filter_eq_nil_iff.2]
    · rfl
    · intro r hr
      obtain ⟨c, _, rfl⟩ := List.mem_map.1 hr
      intro h
      have h' := of_decide_eq_true h
      exact hp ⟨h'.1.symm, h'.2.symm⟩

theorem mem_findArgumentCounts {g : Grammar A} {p : Str} {n : Nat} {r : GRule A} (h : r ∈ g.findRules p n) :
    n ∈ g.findArgumentCounts p := by
  simp only [Grammar.findRules] at h
  split at h
  next inner hi =>
    split at h
    next rules hr =>
      simp only [Grammar.findArgumentCounts, hi]
      exact List.mem_map.2 ⟨_, Assoc.mem_of_get hr, rfl⟩
    next => simp at h
  next => simp at h

theorem findRules_new {rules : List (GRule A)} {p : Str} {n : Nat} {r : GRule A} :
    r ∈ (Grammar.new rules).findRules p n ↔ Usable rules r ∧ r.ante.predicate = p ∧ r.ante.args.length = n := by
  rw [C37_lookup]
  simp only [List.mem_flatMap, List.mem_filter, decide_eq_true_eq, Usable]
  constructor
  · rintro ⟨r0, ⟨h0, h1, h2⟩, hr⟩
    have := (C36_mandatory r0 r hr).1
    rw [this]
    exact ⟨⟨r0, h0, by rw [← this]; exact hr⟩, h1, h2⟩
  · rintro ⟨⟨r0, h0, hr⟩, h1, h2⟩
    have := (C36_mandatory r0 r hr).1
    rw [this] at h1 h2
    exact ⟨r0, ⟨h0, h1, h2⟩, hr⟩

/-- The grammar during a parse. -/
abbrev startedGrammar (E : Oracles) (rules : List (GRule A)) : Grammar A := addStartRules E (Grammar.new rules)

theorem mem_started {E : Oracles} {rules : List (GRule A)} {p : Str} {n : Nat} {r : GRule A} :
    r ∈ (startedGrammar E rules).findRules p n ↔ (Usable rules r ∧ r.ante.predicate = p ∧ r.ante.args.length = n) ∨
      (p = cDelta ∧ n = 1 ∧ ∃ c ∈ (Grammar.new rules).findArgumentCounts cRoot, r = deltaRule E c) := by
  rw [startedGrammar, addStartRules_findRules, List.mem_append, findRules_new]
  by_cases hp : p = cDelta ∧ n = 1
  · rw [if_pos hp, List.mem_map]
    constructor
    · rintro (h | ⟨c, hc, rfl⟩)
      · exact .inl h
      · exact .inr ⟨hp.1, hp.2, c, hc, rfl⟩
    · rintro (h | ⟨_, _, c, hc, rfl⟩)
      · exact .inl h
      · exact .inr ⟨c, hc, rfl⟩
  · rw [if_neg hp]
    constructor
    · rintro (h | h)
      · exact .inl h
      · simp at h
    · rintro (h | ⟨h1, h2, _⟩)
      · exact .inl h
      · exact absurd ⟨h1, h2⟩ hp

theorem isRule_started {E : Oracles} {rules : List (GRule A)} {r : GRule A} (h : IsRule (startedGrammar E rules) r) :
    Usable rules r ∨ ∃ c, r = deltaRule E c := by
  obtain ⟨p, n, h⟩ := h
  rcases mem_started.1 h with h | ⟨_, _, c, _, h⟩
  · exact .inl h.1
  · exact .inr ⟨c, h⟩

theorem Usable.cons_mem {rules : List (GRule A)} {r : GRule A} (h : Usable rules r) :
    ∃ r0 ∈ rules, r.ante = r0.ante ∧ (∀ c ∈ r.cons, c ∈ r0.cons) ∧ r ∈ ruleVariants r0 := by
  obtain ⟨r0, h0, hr⟩ := h
  obtain ⟨h1, h2, _⟩ := C36_mandatory r0 r hr
  exact ⟨r0, h0, by rw [h1], fun c hc => h2.mem hc, hr⟩

/-- Python's `lower` keeps the length of the text from any position on. (It does not for a text with a `İ`.) -/
def LowerOk (E : Oracles) (text : Str) : Prop := ∀ i, (E.lower (text.drop i)).length = (text.drop i).length

theorem chartOk {E : Oracles} {rules : List (GRule A)} (ok : RulesOk rules) {text : Str} (hl : LowerOk E text) :
    ChartOk E (startedGrammar E rules) text := by
  refine ⟨?_, ?_, ?_⟩
  · intro r hr
    rcases isRule_started hr with h | ⟨c, rfl⟩
    · obtain ⟨r0, h0, _, _, hv⟩ := h.cons_mem
      exact ok.cons_ne r0 h0 r hv
    · simp [deltaRule, GRule.new]
  · intro r hr c hc hp
    rcases isRule_started hr with h | ⟨n, rfl⟩
    · obtain ⟨r0, h0, _, hm, _⟩ := h.cons_mem
      exact ok.word_ne r0 h0 c (hm c hc) hp
    · simp only [deltaRule, GRule.new, List.mem_singleton] at hc
      subst hc; simp at hp
  · intro i w hi hw hne
    simp only [readWord, beq_iff_eq] at hw
    have := congrArg List.length hw
    rw [List.length_take, hl, List.length_drop] at this
    omega

theorem base_relation {E : Oracles} {rules : List (GRule A)} (ok : RulesOk rules) {r : GRule A} (h : IsBase E (startedGrammar E rules) r) :
    r.ante.pos = .relation ∧ ∀ c ∈ r.cons, c.args.head? ≠ some cTerminal := by
  rcases h with rfl | h
  · refine ⟨rfl, ?_⟩
    intro c hc
    simp only [gammaRule, GRule.new, List.mem_singleton] at hc
    subst hc; simp [deltaC, cTerminal]
  · rcases isRule_started h with h | ⟨c, rfl⟩
    · obtain ⟨r0, h0, ha, hm, _⟩ := h.cons_mem
      exact ⟨by rw [ha]; exact ok.relation r0 h0, fun c hc => ok.terminal r0 h0 c (hm c hc)⟩
    · refine ⟨rfl, ?_⟩
      intro x hx
      simp only [deltaRule, GRule.new, List.mem_singleton] at hx
      subst hx
      simp only [List.head?_map, cTerminal]
      cases (List.range c).head? <;> simp

theorem scanStates_relation {E : Oracles} {text : Str} {i : Nat} {c : Constituent} {t : EState A} (h : t ∈ scanStates E text i c) :
    t.rule.ante.pos ≠ .relation := by
  have h1 := (scanStates_start h).2.2.2
  have h2 := scanStates_pos h
  simp only [Constituent.syn, Prod.mk.injEq] at h1
  rw [h1.2.2]; exact h2

/-! ## Lists of results -/

theorem mapList_ok {α β : Type} {f : α → Out β} {xs : List α} {ys : List β} (h : Out.mapList f xs = .ok ys) :
    AllRel (fun x y => f x = .ok y) xs ys := by
  induction xs generalizing ys with
  | nil => simp only [Out.mapList, Out.ok.injEq] at h; subst h; exact .nil
  | cons x xs ih =>
    simp only [Out.mapList] at h
    cases hf : f x with
    | err e => rw [hf] at h; simp [Out.bind] at h
    | oof => rw [hf] at h; simp [Out.bind] at h
    | ok y =>
      rw [hf] at h
      simp only [Out.bind] at h
      cases hm : Out.mapList f xs with
      | err e => rw [hm] at h; simp at h
      | oof => rw [hm] at h; simp at h
      | ok zs =>
        rw [hm] at h
        simp only [Out.ok.injEq] at h
        subst h
        exact .cons hf (ih hm)

theorem flatMapList_ok {α β : Type} {f : α → Out (List β)} {xs : List α} {ys : List β} (h : Out.flatMapList f xs = .ok ys) :
    (∀ x ∈ xs, ∃ zs, f x = .ok zs) ∧ ∀ y, y ∈ ys ↔ ∃ x ∈ xs, ∃ zs, f x = .ok zs ∧ y ∈ zs := by
  induction xs generalizing ys with
  | nil => simp only [Out.flatMapList, Out.ok.injEq] at h; subst h; simp
  | cons x xs ih =>
    simp only [Out.flatMapList] at h
    cases hf : f x with
    | err e => rw [hf] at h; simp [Out.bind] at h
    | oof => rw [hf] at h; simp [Out.bind] at h
    | ok zs =>
      rw [hf] at h
      simp only [Out.bind] at h
      cases hm : Out.flatMapList f xs with
      | err e => rw [hm] at h; simp at h
      | oof => rw [hm] at h; simp at h
      | ok ws =>
        rw [hm] at h
        simp only [Out.ok.injEq] at h
        subst h
        obtain ⟨i1, i2⟩ := ih hm
        refine ⟨?_, ?_⟩
        · intro u hu
          rcases List.mem_cons.1 hu with rfl | hu
          · exact ⟨zs, hf⟩
          · exact i1 u hu
        · intro y
          simp only [List.mem_append, List.mem_cons, i2]
          constructor
          · rintro (hy | ⟨u, hu, vs, h1, h2⟩)
            · exact ⟨x, .inl rfl, zs, hf, hy⟩
            · exact ⟨u, .inr hu, vs, h1, h2⟩
          · rintro ⟨u, rfl | hu, vs, h1, h2⟩
            · rw [hf] at h1
              simp only [Out.ok.injEq] at h1
              subst h1; exact .inl h2
            · exact .inr ⟨u, hu, vs, h1, h2⟩

theorem flatMapList_total {α β : Type} {f : α → Out (List β)} {xs : List α} (h : ∀ x ∈ xs, ∃ zs, f x = .ok zs) :
    ∃ ys, Out.flatMapList f xs = .ok ys := by
  induction xs with
  | nil => exact ⟨[], rfl⟩
  | cons x xs ih =>
    obtain ⟨zs, hz⟩ := h x (by simp)
    obtain ⟨ys, hy⟩ := ih fun u hu => h u (List.mem_cons_of_mem _ hu)
    exact ⟨zs ++ ys, by simp [Out.flatMapList, hz, hy, Out.bind]⟩

theorem flatMapList_no_err {α β : Type} {f : α → Out (List β)} {xs : List α} {e : Err} (h : ∀ x ∈ xs, f x ≠ .err e) :
    Out.flatMapList f xs ≠ .err e := by
  induction xs with
  | nil => simp [Out.flatMapList]
  | cons x xs ih =>
    have hx := h x (by simp)
    have ih := ih fun u hu => h u (List.mem_cons_of_mem _ hu)
    simp only [Out.flatMapList]
    cases hf : f x with
    | err e' => simp only [Out.bind]; rw [hf] at hx; exact hx
    | oof => simp [Out.bind]
    | ok zs =>
      simp only [Out.bind]
      cases hm : Out.flatMapList f xs with
      | err e' => rw [hm] at ih; exact ih
      | oof => simp
      | ok ws => simp

theorem mapList_no_err {α β : Type} {f : α → Out β} {xs : List α} {e : Err} (h : ∀ x ∈ xs, f x ≠ .err e) :
    Out.mapList f xs ≠ .err e := by
  induction xs with
  | nil => simp [Out.mapList]
  | cons x xs ih =>
    have hx := h x (by simp)
    have ih := ih fun u hu => h u (List.mem_cons_of_mem _ hu)
    simp only [Out.mapList]
    cases hf : f x with
    | err e' => simp only [Out.bind]; rw [hf] at hx; simpa using hx
    | oof => simp [Out.bind]
    | ok zs =>
      simp only [Out.bind]
      cases hm : Out.mapList f xs with
      | err e' => rw [hm] at ih; simpa using ih
      | oof => simp
      | ok ws => simp

theorem mem_product {α : Type} {xss : List (List α)} {ys : List α} : ys ∈ product xss ↔ AllRel (fun y xs => y ∈ xs) ys xss := by
  induction xss generalizing ys with
  | nil =>
    simp only [product, List.mem_singleton]
    constructor
    · rintro rfl; exact .nil
    · intro h; cases h; rfl
  | cons xs xss ih =>
    simp only [product, List.mem_flatMap, List.mem_map]
    constructor
    · rintro ⟨x, hx, zs, hz, rfl⟩; exact .cons hx (ih.1 hz)
    · intro h
      cases h with
      | cons hx hz => exact ⟨_, hx, _, ih.2 hz, rfl⟩

/-! ## Sequences of completed states -/

/-- The states cover the constituents from `i` to `k`. -/
inductive StateChain (chart : Chart A) : List Constituent → Nat → Nat → List (EState A) → Prop
  | nil (i) : StateChain chart [] i i []
  | cons {c cs i j k s rest} : s ∈ chart.states j → s.isComplete = true → s.start = i → s.fin = j → s.rule.ante.syn = c.syn →
      StateChain chart cs j k rest → StateChain chart (c :: cs) i k (s :: rest)

theorem StateChain.snoc {chart : Chart A} {cs : List Constituent} {i j k : Nat} {seq : List (EState A)} (h : StateChain chart cs i j seq)
    {s : EState A} {c : Constituent} (h1 : s ∈ chart.states k) (h2 : s.isComplete = true) (h3 : s.start = j) (h4 : s.fin = k)
    (h5 : s.rule.ante.syn = c.syn) : StateChain chart (cs ++ [c]) i k (seq ++ [s]) := by
  induction h with
  | nil i => exact .cons h1 h2 h3 h4 h5 (.nil k)
  | cons g1 g2 g3 g4 g5 _ ih => exact .cons g1 g2 g3 g4 g5 (ih h3)

theorem StateChain.unsnoc {chart : Chart A} {cs : List Constituent} {c : Constituent} {i k : Nat} {seq : List (EState A)}
    (h : StateChain chart (cs ++ [c]) i k seq) : ∃ seq' s j, seq = seq' ++ [s] ∧ StateChain chart cs i j seq' ∧ s ∈ chart.states k ∧
      s.isComplete = true ∧ s.start = j ∧ s.fin = k ∧ s.rule.ante.syn = c.syn := by
  induction cs generalizing i seq with
  | nil =>
    cases h with
    | @cons _ _ _ _ _ s rest g1 g2 g3 g4 g5 g6 =>
      cases g6
      exact ⟨[], s, _, rfl, .nil _, g1, g2, g3, g4, g5⟩
  | cons x cs ih =>
    cases h with
    | @cons _ _ _ _ _ s rest g1 g2 g3 g4 g5 g6 =>
      obtain ⟨seq', s', j, rfl, h1, h2⟩ := ih g6
      exact ⟨s :: seq', s', j, rfl, .cons g1 g2 g3 g4 g5 h1, h2⟩

theorem StateChain.transport {chart : Chart A} {cs cs' : List Constituent} {i k : Nat} {seq : List (EState A)} (h : StateChain chart cs i k seq)
    (he : cs.map Constituent.syn = cs'.map Constituent.syn) : StateChain chart cs' i k seq := by
  induction h generalizing cs' with
  | nil i =>
    have : cs' = [] := by simpa using he.symm
    subst this; exact .nil i
  | cons g1 g2 g3 g4 g5 _ ih =>
    cases cs' with
    | nil => simp at he
    | cons c' cs' =>
      simp only [List.map_cons, List.cons.injEq] at he
      exact .cons g1 g2 g3 g4 (g5.trans he.1) (ih he.2)

theorem completed_mem {E : Oracles} {g : Grammar A} {text : Str} {chart : Chart A} (f : Finished E g text chart) {k : Nat}
    {l : List (EState A)} (h : chart.completed k = some l) {s : EState A} : s ∈ l ↔ s ∈ chart.states k ∧ s.isComplete = true := by
  rw [f.completed] at h
  simp only [someList] at h
  split at h
  · simp at h
  · simp only [Option.some.injEq] at h
    rw [← h, List.mem_filter]

theorem complete_moved {E : Oracles} {g : Grammar A} {text : Str} {chart : Chart A} (ok : ChartOk E g text) (f : Finished E g text chart)
    {k : Nat} {s : EState A} (hs : s ∈ chart.states k) (hc : s.isComplete = true) : s.start < k := by
  obtain ⟨hit, hf⟩ := f.items k s hs
  have v := hit.valid ok
  rw [← hf]
  refine v.moved ?_
  simp only [EState.isComplete, decide_eq_true_eq] at hc
  have := List.length_pos_iff.2 v.cons_ne
  omega

theorem take_add_one_of {l : List Constituent} {k : Nat} {c : Constituent} (h : l[k]? = some c) : l.take (k + 1) = l.take k ++ [c] := by
  rw [List.take_add_one, h]; rfl

/-- The sequences found are exactly the chains. -/
theorem findSeqs_mem {E : Oracles} {g : Grammar A} {text : Str} {chart : Chart A} (ok : ChartOk E g text) (f : Finished E g text chart)
    {parent : EState A} (k : Nat) : ∀ {fin : Nat} {seqs : List (List (EState A))}, k < parent.rule.cons.length →
    findSeqs chart parent k fin = .ok seqs →
    ∀ seq, seq ∈ seqs ↔ StateChain chart (parent.rule.cons.take (k + 1)) parent.start fin seq := by
  induction k with
  | zero =>
    intro fin seqs hk h seq
    obtain ⟨c, hc⟩ : ∃ c, parent.rule.cons[0]? = some c := ⟨_, List.getElem?_eq_getElem hk⟩
    rw [take_add_one_of hc, List.take_zero]
    rw [findSeqs] at h
    by_cases h0 : fin = 0
    · rw [if_pos h0] at h
      simp only [Out.ok.injEq] at h
      subst h
      simp only [List.not_mem_nil, false_iff]
      intro hch
      obtain ⟨_, s, j, rfl, _, h1, h2, h3, h4, _⟩ := hch.unsnoc
      have := complete_moved ok f h1 h2
      omega
    · rw [if_neg h0] at h
      cases hcm : chart.completed fin with
      | none => rw [hcm] at h; simp at h
      | some l =>
        rw [hcm] at h
        simp only [hc] at h
        obtain ⟨_, hmem⟩ := flatMapList_ok h
        rw [hmem]
        constructor
        · rintro ⟨s, hs, zs, hz, hy⟩
          obtain ⟨hs1, hs2⟩ := (completed_mem f hcm).1 hs
          obtain ⟨_, hfin⟩ := f.items _ s hs1
          by_cases he : s.rule.ante.equals c = true
          · rw [if_pos he] at hz
            by_cases hst : s.start = parent.start
            · rw [if_pos hst] at hz
              simp only [Out.ok.injEq] at hz
              subst hz
              simp only [List.mem_singleton] at hy
              subst hy
              exact .cons hs1 hs2 hst hfin (Constituent.equals_iff.1 he) (.nil fin)
            · rw [if_neg hst] at hz
              simp only [Out.ok.injEq] at hz
              subst hz; simp at hy
          · rw [if_neg he] at hz
            simp only [Out.ok.injEq] at hz
            subst hz; simp at hy
        · intro hch
          obtain ⟨seq', s, j, rfl, h0', h1, h2, h3, h4, h5⟩ := hch.unsnoc
          cases h0'
          refine ⟨s, (completed_mem f hcm).2 ⟨h1, h2⟩, [[s]], ?_, by simp⟩
          rw [if_pos (Constituent.equals_iff.2 h5), if_pos h3]
  | succ k ih =>
    intro fin seqs hk h seq
    obtain ⟨c, hc⟩ : ∃ c, parent.rule.cons[k + 1]? = some c := ⟨_, List.getElem?_eq_getElem hk⟩
    rw [take_add_one_of hc]
    rw [findSeqs] at h
    by_cases h0 : fin = 0
    · rw [if_pos h0] at h
      simp only [Out.ok.injEq] at h
      subst h
      simp only [List.not_mem_nil, false_iff]
      intro hch
      obtain ⟨_, s, j, rfl, _, h1, h2, h3, h4, _⟩ := hch.unsnoc
      have := complete_moved ok f h1 h2
      omega
    · rw [if_neg h0] at h
      cases hcm : chart.completed fin with
      | none => rw [hcm] at h; simp at h
      | some l =>
        rw [hcm] at h
        simp only [hc] at h
        obtain ⟨htot, hmem⟩ := flatMapList_ok h
        rw [hmem]
        constructor
        · rintro ⟨s, hs, zs, hz, hy⟩
          obtain ⟨hs1, hs2⟩ := (completed_mem f hcm).1 hs
          obtain ⟨_, hfin⟩ := f.items _ s hs1
          by_cases he : s.rule.ante.equals c = true
          · rw [if_pos he] at hz
            cases hfs : findSeqs chart parent k s.start with
            | err e => rw [hfs] at hz; simp [Out.bind] at hz
            | oof => rw [hfs] at hz; simp [Out.bind] at hz
            | ok prev =>
              rw [hfs] at hz
              simp only [Out.bind, Out.ok.injEq] at hz
              subst hz
              obtain ⟨p, hp, rfl⟩ := List.mem_map.1 hy
              exact ((ih (by omega) hfs p).1 hp).snoc hs1 hs2 rfl hfin (Constituent.equals_iff.1 he)
          · rw [if_neg he] at hz
            simp only [Out.ok.injEq] at hz
            subst hz; simp at hy
        · intro hch
          obtain ⟨seq', s, j, rfl, h0', h1, h2, rfl, h4, h5⟩ := hch.unsnoc
          have hsl := (completed_mem f hcm).2 ⟨h1, h2⟩
          obtain ⟨zs, hz⟩ := htot s hsl
          refine ⟨s, hsl, zs, hz, ?_⟩
          rw [if_pos (Constituent.equals_iff.2 h5)] at hz
          cases hfs : findSeqs chart parent k s.start with
          | err e => rw [hfs] at hz; simp [Out.bind] at hz
          | oof => rw [hfs] at hz; simp [Out.bind] at hz
          | ok prev =>
            rw [hfs] at hz
            simp only [Out.bind, Out.ok.injEq] at hz
            subst hz
            exact List.mem_map.2 ⟨seq', (ih (by omega) hfs seq').2 h0', rfl⟩

/-- The trees made for a state of a rule. -/
theorem createTrees_mem {E : Oracles} {g : Grammar A} {text : Str} {chart : Chart A} (ok : ChartOk E g text) (f : Finished E g text chart)
    {fuel : Nat} {s : EState A} (hne : s.rule.cons ≠ []) (hterm : ∀ c ∈ s.rule.cons, c.args.head? ≠ some cTerminal)
    {ts : List (ParseTree A)} (h : createTrees chart (fuel + 1) s = .ok ts) :
    (∀ seq, StateChain chart s.rule.cons s.start s.fin seq → ∃ trees, Out.mapList (createTrees chart fuel) seq = .ok trees) ∧
    ∀ t, t ∈ ts ↔ ∃ seq trees children, StateChain chart s.rule.cons s.start s.fin seq ∧
      Out.mapList (createTrees chart fuel) seq = .ok trees ∧ children ∈ product trees ∧
      t = .node s.rule.ante.predicate children [] s.rule := by
  rw [createTrees] at h
  cases hcons : s.rule.cons with
  | nil => exact absurd hcons hne
  | cons x xs =>
    rw [hcons] at h
    simp only at h
    rw [if_neg (hterm x (by simp [hcons]))] at h
    cases hfs : findSeqs chart s xs.length s.fin with
    | err e => rw [hfs] at h; simp [Out.bind] at h
    | oof => rw [hfs] at h; simp [Out.bind] at h
    | ok seqs =>
      rw [hfs] at h
      simp only [Out.bind] at h
      have hseq := findSeqs_mem ok f xs.length (by rw [hcons]; simp) hfs
      rw [List.take_of_length_le (by rw [hcons]; simp), hcons] at hseq
      obtain ⟨htot, hmem⟩ := flatMapList_ok h
      refine ⟨?_, ?_⟩
      · intro seq hch
        obtain ⟨zs, hz⟩ := htot seq ((hseq seq).2 hch)
        cases hmt : Out.mapList (createTrees chart fuel) seq with
        | err e => rw [hmt] at hz; simp at hz
        | oof => rw [hmt] at hz; simp at hz
        | ok trees => exact ⟨trees, rfl⟩
      · intro t
        rw [hmem]
        constructor
        · rintro ⟨seq, hs, zs, hz, ht⟩
          cases hmt : Out.mapList (createTrees chart fuel) seq with
          | err e => rw [hmt] at hz; simp at hz
          | oof => rw [hmt] at hz; simp at hz
          | ok trees =>
            rw [hmt] at hz
            simp only [Out.ok.injEq] at hz
            subst hz
            obtain ⟨children, hc, rfl⟩ := List.mem_map.1 ht
            exact ⟨seq, trees, children, (hseq seq).1 hs, hmt, hc, rfl⟩
        · rintro ⟨seq, trees, children, hch, hmt, hc, rfl⟩
          refine ⟨seq, (hseq seq).2 hch, (product trees).map fun children => .node s.rule.ante.predicate children [] s.rule, ?_, ?_⟩
          · simp only [hmt]
          · exact List.mem_map.2 ⟨children, hc, rfl⟩

/-! ## Soundness -/

/-- A completed state that was scanned. -/
theorem scanned_token {E : Oracles} {text : Str} {s : EState A} {c0 c : Constituent} (hs : s ∈ scanStates E text s.start c0)
    (he : s.rule.ante.syn = c.syn) (hfin : s.fin ≤ text.length) :
    ∃ w, s.rule.cons = [⟨w, [cTerminal], .word, false, false⟩] ∧ s.rule.ante.predicate = c.predicate ∧ Token E text c s.start s.fin w ∧
      s.rule.sem = leafAttached c w := by
  have h4 := (scanStates_start hs).2.2.2
  rw [h4] at he
  simp only [Constituent.syn, Prod.mk.injEq] at he h4
  rcases mem_scanStates hs with ⟨hp, m, l, hm, hl, hle, heq⟩ | ⟨hp, hw, heq⟩
  · rw [he.1] at hm
    have hlen : ((text.drop s.start).take (l + 1)).length = l + 1 := by
      rw [List.length_take, List.length_drop]; omega
    refine ⟨(text.drop s.start).take (l + 1), ?_, ?_, ⟨?_, hfin, .inr ⟨by rw [← he.2.2]; exact hp, ?_, m, hm, ?_, ?_⟩⟩, ?_⟩
    · rw [heq]; rfl
    · rw [h4.1]; exact he.1
    · have := congrArg EState.fin heq; exact this
    · intro h; rw [h] at hlen; simp at hlen
    · omega
    · rw [hlen]
    · rw [heq, leafAttached, if_pos (by rw [← he.2.2]; exact hp)]; rfl
  · refine ⟨c0.predicate, ?_, by rw [h4.1]; exact he.1, ⟨?_, hfin, .inl ⟨by rw [← he.2.2]; exact hp, he.1, ?_⟩⟩, ?_⟩
    · rw [heq]; rfl
    · have := congrArg EState.fin heq; exact this
    · simpa [readWord] using hw
    · rw [heq, leafAttached, if_neg (by rw [← he.2.2, hp]; simp)]; rfl

theorem represents_append {R : GRule A → GRule A → Prop} {ds ds' : List (DTree A)} {ts ts' : List (ParseTree A)} (h : TreesOf R ds ts)
    (h' : TreesOf R ds' ts') : TreesOf R (ds ++ ds') (ts ++ ts') := by
  induction h with
  | nil => exact h'
  | leaf hr _ ih => exact .leaf hr ih
  | node hr hc _ _ ih => exact .node hr hc ih

theorem derives_append {E : Oracles} {rules : List (GRule A)} {text : Str} {cs cs' : List Constituent} {i j k : Nat}
    {ds ds' : List (DTree A)} (h : Derives E rules text cs i j ds) (h' : Derives E rules text cs' j k ds') :
    Derives E rules text (cs ++ cs') i k (ds ++ ds') := by
  induction h with
  | nil => exact h'
  | leaf ht _ ih => exact .leaf ht (ih h')
  | node hu he hc _ _ ih => exact .node hu he hc (ih h')

/-- The trees made for a completed state are derivations. -/
theorem createTrees_sound {E : Oracles} {rules : List (GRule A)} (ok : RulesOk rules) {text : Str} (hl : LowerOk E text) {chart : Chart A}
    (f : Finished E (startedGrammar E rules) text chart) (fuel : Nat) : ∀ {s : EState A} {k : Nat} {ts : List (ParseTree A)},
    s ∈ chart.states k → s.isComplete = true → createTrees chart fuel s = .ok ts → ∀ t ∈ ts, ∀ c : Constituent, s.rule.ante.syn = c.syn →
    c.pos = .relation → c.predicate ≠ cDelta → c.predicate ≠ cGamma →
    ∃ d, Derives E rules text [c] s.start k [d] ∧ TreesOf Eq [d] [t] := by
  have cok := chartOk ok hl
  -- both kinds of constituents
  suffices H : ∀ (fuel : Nat) {s : EState A} {k : Nat} {ts : List (ParseTree A)},
      s ∈ chart.states k → s.isComplete = true → createTrees chart fuel s = .ok ts → ∀ t ∈ ts, ∀ c : Constituent, s.rule.ante.syn = c.syn →
      (c.pos = .relation → c.predicate ≠ cDelta ∧ c.predicate ≠ cGamma) →
      ∃ d, Derives E rules text [c] s.start k [d] ∧ TreesOf Eq [d] [t] by
    intro s k ts h1 h2 h3 t ht c h4 _ h5 h6
    exact H fuel h1 h2 h3 t ht c h4 fun _ => ⟨h5, h6⟩
  intro fuel
  induction fuel with
  | zero => intro s k ts _ _ h; simp [createTrees] at h
  | succ fuel ih =>
    intro s k ts hs hcomp h t ht c hsyn hres
    obtain ⟨hit, hfin⟩ := f.items k s hs
    have v := hit.valid cok
    rcases v.kind with hb | ⟨r, c0, _, _, hsc⟩
    · -- a rule
      obtain ⟨hrel, hterm⟩ := base_relation ok hb
      have hcp : c.pos = .relation := by
        simp only [Constituent.syn, Prod.mk.injEq] at hsyn
        rw [← hsyn.2.2]; exact hrel
      obtain ⟨hnd, hng⟩ := hres hcp
      have hu : Usable rules s.rule := by
        simp only [Constituent.syn, Prod.mk.injEq] at hsyn
        rcases hb with hb | hb
        · rw [hb] at hsyn; exact absurd hsyn.1.symm hng
        · rcases isRule_started hb with h | ⟨n, hn⟩
          · exact h
          · rw [hn] at hsyn; exact absurd hsyn.1.symm hnd
      obtain ⟨r0, h0, _, hm, _⟩ := hu.cons_mem
      rw [createTrees] at h
      cases hcons : s.rule.cons with
      | nil => exact absurd hcons v.cons_ne
      | cons x xs =>
        rw [hcons] at h
        simp only at h
        rw [if_neg (hterm x (by simp [hcons]))] at h
        cases hfs : findSeqs chart s xs.length s.fin with
        | err e => rw [hfs] at h; simp [Out.bind] at h
        | oof => rw [hfs] at h; simp [Out.bind] at h
        | ok seqs =>
          rw [hfs] at h
          simp only [Out.bind] at h
          obtain ⟨_, hmem⟩ := flatMapList_ok h
          obtain ⟨seq, hseq, zs, hz, hty⟩ := (hmem t).1 ht
          cases hmt : Out.mapList (createTrees chart fuel) seq with
          | err e => rw [hmt] at hz; simp at hz
          | oof => rw [hmt] at hz; simp at hz
          | ok trees =>
            rw [hmt] at hz
            simp only [Out.ok.injEq] at hz
            subst hz
            obtain ⟨children, hch, rfl⟩ := List.mem_map.1 hty
            have hchain := (findSeqs_mem cok f xs.length (by rw [hcons]; simp) hfs seq).1 hseq
            rw [List.take_of_length_le (by rw [hcons]; simp)] at hchain
            have hall := mapList_ok hmt
            have hprod := mem_product.1 hch
            -- the children
            have key : ∀ {cs : List Constituent} {i k : Nat} {seq : List (EState A)}, StateChain chart cs i k seq →
                (∀ c ∈ cs, c.pos = .relation → c.predicate ≠ cDelta ∧ c.predicate ≠ cGamma) →
                ∀ {trees : List (List (ParseTree A))} {children : List (ParseTree A)},
                AllRel (fun x y => createTrees chart fuel x = .ok y) seq trees → AllRel (fun y xs => y ∈ xs) children trees →
                ∃ ds, Derives E rules text cs i k ds ∧ TreesOf Eq ds children := by
              intro cs i k seq hchain
              induction hchain with
              | nil i =>
                intro _ trees children h1 h2
                cases h1; cases h2
                exact ⟨[], .nil i, .nil⟩
              | cons g1 g2 g3 g4 g5 _ ihc =>
                intro hcs trees children h1 h2
                cases h1 with
                | cons h11 h12 =>
                  cases h2 with
                  | cons h21 h22 =>
                    obtain ⟨ds, hd1, hd2⟩ := ihc (fun c hc => hcs c (List.mem_cons_of_mem _ hc)) h12 h22
                    obtain ⟨d, hd3, hd4⟩ := ih g1 g2 h11 _ h21 _ g5 (hcs _ (by simp))
                    rw [g3] at hd3
                    have hd1' := derives_append hd3 hd1
                    have hd2' := represents_append hd4 hd2
                    exact ⟨d :: ds, hd1', hd2'⟩
            obtain ⟨ds, hd1, hd2⟩ := key hchain (fun c hc hp => ok.reserved r0 h0 c (hm c hc) hp) hall hprod
            rw [hfin] at hd1
            exact ⟨.node s.rule ds, .node hu (Constituent.equals_iff.2 hsyn) hd1 (.nil k), .node rfl hd2 .nil⟩
    · -- a word or a regular expression
      obtain ⟨w, hw, hpred, htok, hatt⟩ := scanned_token hsc hsyn v.fin_le
      rw [createTrees, hw] at h
      simp only [List.head?_cons, if_true, Out.ok.injEq] at h
      subst h
      simp only [List.mem_singleton] at ht
      subst ht
      rw [hfin] at htok
      rw [hpred]
      exact ⟨.leaf c w, .leaf htok (.nil k), .leaf ⟨Constituent.equals_iff.2 hsyn, hatt⟩ .nil⟩

/-! ## Completeness -/

/-- All trees made for the state include one for the derivation. -/
def Covers (chart : Chart A) (s : EState A) (d : DTree A) : Prop :=
  ∀ fuel ts, createTrees chart fuel s = .ok ts → ∃ t ∈ ts, TreesOf (fun r r' => r.equals r' = true) [d] [t]

theorem syn_complete {s : EState A} {r : GRule A} (h : s.rule.syn = r.syn) (hd : s.dot = 1 + r.cons.length) : s.isComplete = true := by
  simp [EState.isComplete, syn_length h, hd]; omega

theorem readWord_inside {E : Oracles} {text : Str} {i j : Nat} {c : Constituent} {form : Str}
    (h : Token E text c i j form) : ∃ t ∈ scanStates (A := A) E text i c, t.syn = (scannedState (A := A) E c i form .none).syn ∧
      t.fin = j ∧ t.start = i := by
  obtain ⟨hj, hle, ⟨hp, rfl, hw⟩ | ⟨hp, hne, m, hm, hlm, hf⟩⟩ := h
  · refine ⟨scannedState E c i c.predicate .none, ?_, rfl, hj.symm, rfl⟩
    simp [scanStates, hp, readWord, hw]
  · have hpos := List.length_pos_iff.2 hne
    refine ⟨scannedState E c i form (.word form), ?_, rfl, hj.symm, rfl⟩
    simp only [scanStates, hp, if_true, performRegexp, hm, Option.map_some]
    refine List.mem_append_left _ (List.mem_map.2 ⟨form.length - 1, ?_, ?_⟩)
    · rw [List.mem_range, List.length_take, List.length_drop]; omega
    · rw [List.take_take, Nat.sub_add_cancel hpos, Nat.min_eq_left hlm, ← hf]

/-- The derivations are in the chart. -/
theorem derives_chart {E : Oracles} {rules : List (GRule A)} (ok : RulesOk rules) {text : Str} (hl : LowerOk E text) {chart : Chart A}
    (f : Finished E (startedGrammar E rules) text chart) {cs : List Constituent} {i k : Nat} {ds : List (DTree A)}
    (h : Derives E rules text cs i k ds) : ∀ (st : EState A) (pre post : List (Str × Nat × PosType)), st ∈ chart.states i →
    st.rule.cons.map Constituent.syn = pre ++ cs.map Constituent.syn ++ post → st.dot = pre.length + 1 →
    (∀ c ∈ cs, c.pos = .word → c.predicate ≠ []) →
    (∃ st' ∈ chart.states k, st'.rule.syn = st.rule.syn ∧ st'.dot = st.dot + cs.length ∧ st'.start = st.start) ∧
    ∃ seq, StateChain chart cs i k seq ∧ AllRel (Covers chart) seq ds := by
  have cok := chartOk ok hl
  -- how a completed state moves the state that waits for it
  have move : ∀ {st s : EState A} {pre post : List (Str × Nat × PosType)} {c : Constituent} {cs : List Constituent} {j : Nat},
      st ∈ chart.states s.start → s ∈ chart.states j → s.isComplete = true → s.rule.ante.syn = c.syn →
      st.rule.cons.map Constituent.syn = pre ++ (c :: cs).map Constituent.syn ++ post → st.dot = pre.length + 1 →
      ∃ st' ∈ chart.states j, st'.rule.syn = st.rule.syn ∧ st'.dot = st.dot + 1 ∧ st'.start = st.start ∧
        st'.rule.cons.map Constituent.syn = (pre ++ [c.syn]) ++ cs.map Constituent.syn ++ post ∧ st'.dot = (pre ++ [c.syn]).length + 1 := by
    intro st s pre post c cs j hst hs hcomp hante hcons hdot
    have hlen := congrArg List.length hcons
    simp only [List.length_map, List.length_append, List.length_cons] at hlen
    have hx : ∃ x, st.rule.cons[st.dot - 1]? = some x ∧ x.syn = c.syn := by
      have := congrArg (fun l => l[st.dot - 1]?) hcons
      simp only [List.getElem?_map, hdot, Nat.add_sub_cancel, List.map_cons, List.append_assoc] at this
      rw [List.getElem?_append_right (Nat.le_refl _), Nat.sub_self] at this
      simp only [List.cons_append, List.getElem?_cons_zero, Option.map_eq_some_iff] at this
      obtain ⟨x, h1, h2⟩ := this
      exact ⟨x, by rw [hdot, Nat.add_sub_cancel]; exact h1, h2⟩
    obtain ⟨x, hx, hxs⟩ := hx
    have hxs' := hxs.trans hante.symm
    simp only [Constituent.syn, Prod.mk.injEq] at hxs'
    have hadv : advance s st = some ⟨st.rule, st.dot + 1, st.start, s.fin⟩ := by
      simp only [advance]
      rw [if_neg (by omega), hx]
      simp only
      rw [if_neg (by rw [hxs'.1]; simp), if_neg (by rw [hxs'.2.2]; simp)]
    obtain ⟨_, hfin⟩ := f.items j s hs
    obtain ⟨st', hst', he⟩ := (f.treated j s hs).advanced hcomp st hst _ hadv
    rw [hfin] at hst'
    simp only [EState.syn, Prod.mk.injEq] at he
    have hrule : st'.rule.cons.map Constituent.syn = st.rule.cons.map Constituent.syn := (Prod.mk.inj he.1).2
    exact ⟨st', hst', he.1, he.2.1, he.2.2.1, by rw [hrule, hcons]; simp, by rw [he.2.1, hdot]; simp⟩
  -- the state that waits is not complete and its next constituent is known
  have wait : ∀ {st : EState A} {pre post : List (Str × Nat × PosType)} {c : Constituent} {cs : List Constituent},
      st.rule.cons.map Constituent.syn = pre ++ (c :: cs).map Constituent.syn ++ post → st.dot = pre.length + 1 →
      st.isComplete = false ∧ ∃ x, st.rule.cons[st.dot - 1]? = some x ∧ x.syn = c.syn := by
    intro st pre post c cs hcons hdot
    have hlen := congrArg List.length hcons
    simp only [List.length_map, List.length_append, List.length_cons] at hlen
    refine ⟨by simp [EState.isComplete]; omega, ?_⟩
    have := congrArg (fun l => l[st.dot - 1]?) hcons
    simp only [List.getElem?_map, hdot, Nat.add_sub_cancel, List.map_cons, List.append_assoc] at this
    rw [List.getElem?_append_right (Nat.le_refl _), Nat.sub_self] at this
    simp only [List.cons_append, List.getElem?_cons_zero, Option.map_eq_some_iff] at this
    obtain ⟨x, h1, h2⟩ := this
    exact ⟨x, by rw [hdot, Nat.add_sub_cancel]; exact h1, h2⟩
  induction h with
  | nil i =>
    intro st pre post hst _ _ _
    exact ⟨⟨st, hst, rfl, by simp, rfl⟩, [], .nil i, .nil⟩
  | @leaf c cs i j k form ds htok _ ih =>
    intro st pre post hst hcons hdot hne
    obtain ⟨hinc, x, hx, hxs⟩ := wait hcons hdot
    obtain ⟨_, hfin⟩ := f.items i st hst
    -- the token for the constituent of the state
    have htokx : Token E text x i j form := by
      simp only [Constituent.syn, Prod.mk.injEq] at hxs
      simpa only [Token, hxs.1, hxs.2.2] using htok
    have hfne : form ≠ [] := by
      obtain ⟨_, _, ⟨hp, rfl, _⟩ | ⟨_, h, _⟩⟩ := htok
      · exact hne c (by simp) hp
      · exact h
    have hij : i < j ∧ j ≤ text.length := by
      have := List.length_pos_iff.2 hfne
      obtain ⟨h1, h2, _⟩ := htok
      omega
    obtain ⟨t, ht, hts, htf, htst⟩ := readWord_inside (A := A) htokx
    rw [← hfin] at ht
    obtain ⟨s', hs', hs's⟩ := (f.treated i st hst).scanned hinc (by omega) x hx t ht
    rw [htf] at hs'
    have hsyn := hs's.trans hts
    have hsyn' := hsyn
    simp only [EState.syn, scannedState, Prod.mk.injEq] at hsyn
    have hs'c : s'.isComplete = true := by
      simp [EState.isComplete, syn_length hsyn.1, hsyn.2.1, GRule.new]
    have hs'a : s'.rule.ante.syn = c.syn := by
      have := (Prod.mk.inj hsyn.1).1
      rw [this, ← hxs]; rfl
    have hs'st : s'.start = i := by rw [hsyn.2.2.1]
    obtain ⟨hit, hs'f⟩ := f.items j s' hs'
    have v := hit.valid cok
    have hcov : Covers chart s' (.leaf c form) := by
      intro fuel ts hts
      rcases v.kind with hb | ⟨r, c0, _, _, hsc⟩
      · have := (base_relation ok hb).1
        simp only [Constituent.syn, Prod.mk.injEq] at hs'a
        rw [hs'a.2.2] at this
        obtain ⟨_, _, ⟨hp, _⟩ | ⟨hp, _⟩⟩ := htok <;> rw [hp] at this <;> simp at this
      · obtain ⟨w, hw, hpred, _, hatt⟩ := scanned_token hsc hs'a v.fin_le
        have hwf : w = form := by
          have h2 := (Prod.mk.inj hsyn.1).2
          rw [hw] at h2
          simpa [Constituent.syn, GRule.new] using h2
        cases fuel with
        | zero => simp [createTrees] at hts
        | succ fuel =>
          rw [createTrees, hw] at hts
          simp only [List.head?_cons, if_true, Out.ok.injEq] at hts
          subst hts
          refine ⟨_, List.mem_singleton.2 rfl, ?_⟩
          rw [hpred, hwf]
          exact .leaf ⟨Constituent.equals_iff.2 hs'a, by rw [hatt, hwf]⟩ .nil
    rw [← hs'st] at hst
    obtain ⟨st', hst', h1, h2, h3, h4, h5⟩ := move hst hs' hs'c hs'a hcons hdot
    obtain ⟨⟨st'', g1, g2, g3, g4⟩, seq, hch, hcv⟩ := ih st' _ post hst' h4 h5 fun c hc => hne c (List.mem_cons_of_mem _ hc)
    exact ⟨⟨st'', g1, g2.trans h1, by rw [g3, h2]; simp; omega, g4.trans h3⟩, s' :: seq, .cons hs' hs'c hs'st hs'f hs'a hch, .cons hcov hcv⟩
  | @node c cs i j k r ds es hu he hd _ ih1 ih2 =>
    intro st pre post hst hcons hdot hne
    obtain ⟨hinc, x, hx, hxs⟩ := wait hcons hdot
    obtain ⟨_, hfin⟩ := f.items i st hst
    have hrc := Constituent.equals_iff.1 he
    have hr : r ∈ (startedGrammar E rules).findRules x.predicate x.args.length := by
      refine mem_started.2 (.inl ⟨hu, ?_⟩)
      have := hrc.trans hxs.symm
      simp only [Constituent.syn, Prod.mk.injEq] at this
      exact ⟨this.1, this.2.1⟩
    obtain ⟨s0, hs0, hs0s⟩ := (f.treated i st hst).predicted hinc x hx r hr
    rw [hfin] at hs0
    simp only [EState.syn, Prod.mk.injEq] at hs0s
    have hs0c : s0.rule.cons.map Constituent.syn = [] ++ r.cons.map Constituent.syn ++ [] := by
      simpa using (Prod.mk.inj hs0s.1).2
    obtain ⟨r0, hr0, hante, hmem, _⟩ := hu.cons_mem
    obtain ⟨⟨st1, hst1, a1, a2, a3⟩, seq1, hch1, hcv1⟩ := ih1 s0 [] [] hs0 hs0c (by rw [hs0s.2.1]; rfl)
      (fun c hc hp => ok.word_ne r0 hr0 c (hmem c hc) hp)
    have hsyn1 : st1.rule.syn = r.syn := a1.trans hs0s.1
    have hcomp1 : st1.isComplete = true := syn_complete hsyn1 (by rw [a2, hs0s.2.1])
    have hstart1 : st1.start = i := by rw [a3, hs0s.2.2.1, hfin]
    have hante1 : st1.rule.ante.syn = c.syn := ((Prod.mk.inj hsyn1).1).trans hrc
    obtain ⟨hit1, hf1⟩ := f.items j st1 hst1
    have v1 := hit1.valid cok
    have hcov : Covers chart st1 (.node r ds) := by
      intro fuel ts hts
      have hb : IsBase E (startedGrammar E rules) st1.rule := by
        rcases v1.kind with hb | ⟨_, _, _, _, hsc⟩
        · exact hb
        · have h1 := scanStates_relation hsc
          have h2 : st1.rule.ante.syn = r.ante.syn := (Prod.mk.inj hsyn1).1
          simp only [Constituent.syn, Prod.mk.injEq] at h2
          exact absurd (h2.2.2.trans (by rw [hante]; exact ok.relation r0 hr0)) h1
      have hterm := (base_relation ok hb).2
      cases fuel with
      | zero => simp [createTrees] at hts
      | succ fuel =>
        rw [createTrees] at hts
        cases hcs : st1.rule.cons with
        | nil => exact absurd hcs v1.cons_ne
        | cons y ys =>
          rw [hcs] at hts
          simp only at hts
          rw [if_neg (hterm y (by simp [hcs]))] at hts
          cases hfs : findSeqs chart st1 ys.length st1.fin with
          | err e => rw [hfs] at hts; simp [Out.bind] at hts
          | oof => rw [hfs] at hts; simp [Out.bind] at hts
          | ok seqs =>
            rw [hfs] at hts
            simp only [Out.bind] at hts
            obtain ⟨htot, hmem'⟩ := flatMapList_ok hts
            have hin : seq1 ∈ seqs := by
              refine (findSeqs_mem cok f ys.length (by rw [hcs]; simp) hfs seq1).2 ?_
              rw [List.take_of_length_le (by rw [hcs]; simp), hstart1, hf1]
              exact hch1.transport (Prod.mk.inj hsyn1).2.symm
            obtain ⟨zs, hz⟩ := htot seq1 hin
            have hz0 := hz
            cases hmt : Out.mapList (createTrees chart fuel) seq1 with
            | err e => rw [hmt] at hz; simp at hz
            | oof => rw [hmt] at hz; simp at hz
            | ok trees =>
              rw [hmt] at hz
              simp only [Out.ok.injEq] at hz
              have hall := mapList_ok hmt
              -- choose a tree for each child
              have key : ∀ {seq : List (EState A)} {ds : List (DTree A)}, AllRel (Covers chart) seq ds →
                  ∀ {trees : List (List (ParseTree A))}, AllRel (fun x y => createTrees chart fuel x = .ok y) seq trees →
                  ∃ children, AllRel (fun y xs => y ∈ xs) children trees ∧
                    TreesOf (fun r r' => r.equals r' = true) ds children := by
                intro seq ds hcv
                induction hcv with
                | nil => intro trees h; cases h; exact ⟨[], .nil, .nil⟩
                | cons hc _ ih =>
                  intro trees h
                  cases h with
                  | cons h1 h2 =>
                    obtain ⟨children, g1, g2⟩ := ih h2
                    obtain ⟨t, ht, hrep⟩ := hc fuel _ h1
                    exact ⟨t :: children, .cons ht g1, represents_append hrep g2⟩
              obtain ⟨children, hch, hrep⟩ := key hcv1 hall
              refine ⟨.node st1.rule.ante.predicate children [] st1.rule, ?_, .node (GRule.equals_iff.2 hsyn1.symm) hrep .nil⟩
              refine (hmem' _).2 ⟨seq1, hin, zs, hz0, ?_⟩
              rw [← hz]
              exact List.mem_map.2 ⟨children, mem_product.2 hch, rfl⟩
    rw [← hstart1] at hst
    obtain ⟨st', hst', h1, h2, h3, h4, h5⟩ := move hst hst1 hcomp1 hante1 hcons hdot
    obtain ⟨⟨st'', g1, g2, g3, g4⟩, seq, hch, hcv⟩ := ih2 st' _ post hst' h4 h5 fun c hc => hne c (List.mem_cons_of_mem _ hc)
    exact ⟨⟨st'', g1, g2.trans h1, by rw [g3, h2]; simp; omega, g4.trans h3⟩, st1 :: seq, .cons hst1 hcomp1 hstart1 hf1 hante1 hch,
      .cons hcov hcv⟩

end Verif

import Verif.EarleyMore

/-!
# C29 - C34, C39, C61
-/

namespace Verif

variable {A : Type}

/-! ## An example grammar -/

/-- Oracles for the examples: no useful hash, `lower` changes `A` only, one regular expression `x` that takes all text. -/
def exOracles : Oracles :=
  ⟨fun _ _ => 0, fun _ _ _ _ => 0, fun s => s.map fun c => if c = 'A' then 'a' else c, fun p s => if p = ['x'] then some s.length else none⟩

/-- The exception in a result. -/
def Out.error? {α : Type} : Out α → Option Err
  | .err e => some e
  | _ => none

theorem Out.error?_eq {α : Type} {x : Out α} {e : Err} (h : x.error? = some e) : x = .err e := by
  cases x <;> simp [Out.error?] at h
  rw [h]

/-- The constituent `s(E)`. -/
def exS : Constituent := ⟨cRoot, [['E']], .relation, false, false⟩
/-- The constituent `np(E)`. -/
def exNp : Constituent := ⟨['n', 'p'], [['E']], .relation, false, false⟩
/-- A word. -/
def exW (w : Str) : Constituent := ⟨w, [], .word, false, false⟩
/-- A regular expression. -/
def exRegexp (w : Str) : Constituent := ⟨w, [], .regexp, false, false⟩

/-- A left-recursive, ambiguous grammar: `s -> np`, `s -> s s`, `np -> 'a'`, `np -> /x/`. -/
def exRules : List (GRule Unit) :=
  [GRule.new exOracles.ruleHash exS [exNp] .none, GRule.new exOracles.ruleHash exS [exS, exS] .none,
   GRule.new exOracles.ruleHash exNp [exW ['a']] .none, GRule.new exOracles.ruleHash exNp [exRegexp ['x']] .none]

theorem exRules_ok : RulesOk exRules := by
  constructor <;> decide +kernel

theorem exLower_ok (text : Str) : LowerOk exOracles text := by
  intro i; simp [exOracles]

/-- Unit rules go down in rank. -/
theorem unit_wf {rules : List (GRule A)} (rank : Str × Nat × PosType → Nat)
    (h : ∀ r ∈ rules, ∀ v ∈ ruleVariants r, ∀ c, v.cons = [c] → rank c.syn < rank v.ante.syn) : WellFounded (UnitStep rules) := by
  refine Subrelation.wf (r := InvImage (· < ·) rank) ?_ (InvImage.wf rank Nat.lt_wfRel.wf)
  rintro x y ⟨r, c, ⟨r0, h0, hv⟩, hc, rfl, rfl⟩
  exact h r0 h0 r hv c hc

theorem exRules_unit : WellFounded (UnitStep exRules) := by
  refine unit_wf (fun x => if x.2.2 = .relation then (if x.1 = cRoot then 2 else 1) else 0) ?_
  have h : ∀ r ∈ exRules, ∀ v ∈ ruleVariants r,
      v.cons = [exNp] ∧ v.ante = exS ∨ v.cons = [exS, exS] ∨ v.cons = [exW ['a']] ∧ v.ante = exNp ∨ v.cons = [exRegexp ['x']] ∧ v.ante = exNp := by
    decide +kernel
  intro r hr v hv c hc
  rcases h r hr v hv with ⟨h, ha⟩ | h | ⟨h, ha⟩ | ⟨h, ha⟩ <;> rw [hc] at h <;> simp at h
  all_goals (subst h; rw [ha]; decide)

/-! ## C31 -/

/-- **C31.** The chart is built within a finite number of steps, without an exception, and does not depend on the steps allowed. -/
theorem C31_terminates (E : Oracles) (rules : List (GRule A)) (ok : RulesOk rules) (text : Str) (hl : LowerOk E text) :
    ∃ N chart, ∀ fuel, N ≤ fuel → buildChart E fuel (addStartRules E (Grammar.new rules)) text = .ok chart := by
  obtain ⟨chart, h, _⟩ := buildChart_ok (chartOk ok hl) (Nat.le_refl _)
  exact ⟨_, chart, fun fuel hf => buildChart_mono hf h⟩

/-- **C31.** No number of steps leads to an exception. -/
theorem C31_no_exception (E : Oracles) (rules : List (GRule A)) (ok : RulesOk rules) (text : Str) (hl : LowerOk E text) (fuel : Nat) (e : Err) :
    buildChart E fuel (addStartRules E (Grammar.new rules)) text ≠ .err e :=
  buildChart_no_err (chartOk ok hl) fuel e

example : RulesOk exRules ∧ LowerOk exOracles ['a', 'b', 'a'] := ⟨exRules_ok, exLower_ok _⟩

/-- The empty rule `s ->` makes the parser raise a `RuntimeError`: the condition in **C31** is needed. -/
theorem C31_empty_rule : (parse exOracles 10 10 (Grammar.new [GRule.new exOracles.ruleHash exS [] (.none : RuleSem Unit)]) ['a']).1 =
    .err .runtimeError := Out.error?_eq (by decide +kernel)

/-- Oracles in which `lower` makes a letter longer, as Python does with `İ` (here `I` becomes `ij`). -/
def longOracles : Oracles := { exOracles with lower := fun s => s.flatMap fun c => if c = 'I' then ['i', 'j'] else [c] }

/-- When `lower` makes the text longer a word may be found that ends behind the text, an `IndexError`: the condition is needed. -/
theorem C31_long_lower : (parse longOracles 10 10 (Grammar.new [GRule.new longOracles.ruleHash exS [exW ['i', 'j']] (.none : RuleSem Unit)])
    ['I']).1 = .err .indexError := Out.error?_eq (by decide +kernel)

/-! ## C32 -/

/-- **C32.** The parser raises no exception. -/
theorem C32_no_exception (E : Oracles) (rules : List (GRule A)) (ok : RulesOk rules) (text : Str) (hl : LowerOk E text) (fuel depth : Nat)
    (e : Err) : (parse E fuel depth (Grammar.new rules) text).1 ≠ .err e := by
  simp only [parse, parseWith]
  cases hb : buildChart E fuel (addStartRules E (Grammar.new rules)) text with
  | err e' => exact absurd hb (buildChart_no_err (chartOk ok hl) fuel e')
  | oof => simp [Out.bind]
  | ok chart =>
    have f := (buildChart_inv (chartOk ok hl) hb).finished (chartOk ok hl)
    simp only [Out.bind]
    cases hr : extractRoots E depth chart text.length with
    | err e' => exact absurd hr (extractRoots_no_err ok hl f depth e')
    | oof => simp
    | ok roots => simp

example : RulesOk exRules ∧ LowerOk exOracles ['a', 'b', 'a'] := ⟨exRules_ok, exLower_ok _⟩

/-- What is known when a parse returns. -/
theorem parse_ok {E : Oracles} {rules : List (GRule A)} (ok : RulesOk rules) {text : Str} (hl : LowerOk E text) {fuel depth : Nat}
    {trees : List (ParseTree A)} {e : ParseError} (h : (parse E fuel depth (Grammar.new rules) text).1 = .ok (trees, e)) :
    ∃ chart, Finished E (startedGrammar E rules) text chart ∧ extractRoots E depth chart text.length = .ok trees ∧
      e = if trees.length = 0 then
            (if findUnknownWord chart text ≠ [] then .unknownWord (findUnknownWord chart text)
             else if text.length = 0 then .noSentence else .notUnderstood)
          else .none := by
  simp only [parse, parseWith] at h
  cases hb : buildChart E fuel (addStartRules E (Grammar.new rules)) text with
  | err e' => rw [hb] at h; simp [Out.bind] at h
  | oof => rw [hb] at h; simp [Out.bind] at h
  | ok chart =>
    rw [hb] at h
    simp only [Out.bind] at h
    cases hr : extractRoots E depth chart text.length with
    | err e' => rw [hr] at h; simp at h
    | oof => rw [hr] at h; simp at h
    | ok roots =>
      rw [hr] at h
      simp only [Out.ok.injEq, Prod.mk.injEq] at h
      obtain ⟨rfl, he⟩ := h
      exact ⟨chart, (buildChart_inv (chartOk ok hl) hb).finished (chartOk ok hl), hr, he.symm⟩

/-! ## C29 -/

/-- **C29.** Every tree represents a derivation of the whole text from the category `s`, with exactly the rules in the tree. -/
theorem C29_derivation (E : Oracles) (rules : List (GRule A)) (ok : RulesOk rules) (text : Str) (hl : LowerOk E text) (fuel depth : Nat)
    (trees : List (ParseTree A)) (e : ParseError) (h : (parse E fuel depth (Grammar.new rules) text).1 = .ok (trees, e)) (t : ParseTree A)
    (ht : t ∈ trees) : ∃ c d, c.predicate = cRoot ∧ c.pos = .relation ∧ Derives E rules text [c] 0 text.length [d] ∧ TreesOf Eq [d] [t] := by
  obtain ⟨chart, f, hr, _⟩ := parse_ok ok hl h
  obtain ⟨c, d, hc, h1, h2⟩ := roots_sound ok hl f hr ht
  exact ⟨c, d, hc.1, hc.2, h1, h2⟩

/-- **C29.** The root is an `s` made by a rule of the grammar. -/
theorem C29_root (E : Oracles) (rules : List (GRule A)) (ok : RulesOk rules) (text : Str) (hl : LowerOk E text) (fuel depth : Nat)
    (trees : List (ParseTree A)) (e : ParseError) (h : (parse E fuel depth (Grammar.new rules) text).1 = .ok (trees, e)) (t : ParseTree A)
    (ht : t ∈ trees) : ∃ children r, t = .node cRoot children [] r ∧ children.length = r.cons.length ∧ Usable rules r ∧
      r.ante.predicate = cRoot := by
  obtain ⟨c, d, hc1, hc2, h1, h2⟩ := C29_derivation E rules ok text hl fuel depth trees e h t ht
  cases h1 with
  | leaf htok _ =>
    obtain ⟨_, _, ⟨hp, _⟩ | ⟨hp, _⟩⟩ := htok <;> rw [hc2] at hp <;> simp at hp
  | @node _ _ _ _ _ r ds _ hu he hd hn =>
    cases h2 with
    | @node _ _ _ us _ _ hr hrep _ =>
      subst hr
      have hs := Constituent.equals_iff.1 he
      simp only [Constituent.syn, Prod.mk.injEq] at hs
      have hs1 : r.ante.predicate = cRoot := hs.1.trans hc1
      refine ⟨us, r, by rw [hs1], ?_, hu, hs1⟩
      have l1 : ∀ {cs : List Constituent} {i k : Nat} {ds : List (DTree A)}, Derives E rules text cs i k ds → ds.length = cs.length := by
        intro cs i k ds h
        induction h with
        | nil => rfl
        | leaf _ _ ih => simp [ih]
        | node _ _ _ _ _ ih => simp [ih]
      have l2 : ∀ {ds : List (DTree A)} {ts : List (ParseTree A)}, TreesOf Eq ds ts → ts.length = ds.length := by
        intro ds ts h
        induction h with
        | nil => rfl
        | leaf _ _ ih => simp [ih]
        | node _ _ _ _ ih => simp [ih]
      rw [l2 hrep, l1 hd]

mutual
/-- Specification: the forms of the leaves, from left to right. -/
def ParseTree.leaves : ParseTree A → List Str
  | .node _ [] form _ => [form]
  | .node _ (c :: cs) _ _ => c.leaves ++ ParseTree.leavesAll cs
/-- See `ParseTree.leaves`. -/
def ParseTree.leavesAll : List (ParseTree A) → List Str
  | [] => []
  | c :: cs => c.leaves ++ ParseTree.leavesAll cs
end

theorem ParseTree.leaves_cons (cat : Str) (children : List (ParseTree A)) (form : Str) (r : GRule A) (h : children ≠ []) :
    (ParseTree.node cat children form r).leaves = ParseTree.leavesAll children := by
  cases children with
  | nil => exact absurd rfl h
  | cons c cs => rw [ParseTree.leaves, ParseTree.leavesAll]

theorem take_drop_add (text : Str) {i j k : Nat} (h1 : i ≤ j) (h2 : j ≤ k) :
    (text.drop i).take (k - i) = (text.drop i).take (j - i) ++ (text.drop j).take (k - j) := by
  have : k - i = (j - i) + (k - j) := by omega
  rw [this, List.take_add, List.drop_drop]
  congr 3; omega

theorem derives_spell {E : Oracles} {rules : List (GRule A)} (ok : RulesOk rules) {text : Str} {low : Char → Char}
    (hlow : ∀ i, E.lower (text.drop i) = (text.drop i).map low) {R : GRule A → GRule A → Prop}
    {cs : List Constituent} {i k : Nat} {ds : List (DTree A)} (h : Derives E rules text cs i k ds) :
    ∀ {ts : List (ParseTree A)}, TreesOf R ds ts → i ≤ k ∧
    ∃ segs : List Str, segs.flatten = (text.drop i).take (k - i) ∧
      AllRel (fun form seg => form = seg ∨ form = seg.map low) (ParseTree.leavesAll ts) segs := by
  induction h with
  | nil i =>
    intro ts h
    cases h
    exact ⟨Nat.le_refl _, [], by simp, by rw [ParseTree.leavesAll]; exact .nil⟩
  | @leaf c cs i j k form ds htok _ ih =>
    intro ts h
    cases h with
    | leaf hr hrest =>
      obtain ⟨hle, segs, h1, h2⟩ := ih hrest
      obtain ⟨hj, hjn, htok⟩ := htok
      refine ⟨by omega, (text.drop i).take (j - i) :: segs, ?_, ?_⟩
      · rw [List.flatten_cons, h1]
        exact (take_drop_add text (by omega) hle).symm
      · rw [ParseTree.leavesAll, ParseTree.leaves]
        have hji : j - i = form.length := by omega
        rw [hji]
        refine .cons ?_ h2
        rcases htok with ⟨_, _, hw⟩ | ⟨_, _, m, _, _, hf⟩
        · right
          rw [hlow, ← List.map_take] at hw
          exact hw.symm
        · exact .inl hf
  | @node c cs i j k r ds es hu he hd _ ih1 ih2 =>
    intro ts h
    cases h with
    | @node _ _ _ us _ _ hr hrep hrest =>
      obtain ⟨hle1, segs1, g1, g2⟩ := ih1 hrep
      obtain ⟨hle2, segs2, g3, g4⟩ := ih2 hrest
      have hne : us ≠ [] := by
        rintro rfl
        cases hrep
        obtain ⟨r0, h0, _, _, hv⟩ := hu.cons_mem
        have hne := ok.cons_ne r0 h0 r hv
        generalize r.cons = cs at hd hne
        cases hd
        exact hne rfl
      refine ⟨by omega, segs1 ++ segs2, ?_, ?_⟩
      · rw [List.flatten_append, g1, g3]
        exact (take_drop_add text hle1 hle2).symm
      · rw [ParseTree.leavesAll, ParseTree.leaves_cons _ _ _ _ hne]
        exact g2.append g4

/-- **C29.** The leaves spell out the text: the text is cut in segments, each leaf is a segment or (a word) its lower-case form. -/
theorem C29_leaves (E : Oracles) (rules : List (GRule A)) (ok : RulesOk rules) (text : Str) (low : Char → Char)
    (hlow : ∀ i, E.lower (text.drop i) = (text.drop i).map low) (fuel depth : Nat)
    (trees : List (ParseTree A)) (e : ParseError) (h : (parse E fuel depth (Grammar.new rules) text).1 = .ok (trees, e)) (t : ParseTree A)
    (ht : t ∈ trees) : ∃ segs : List Str, segs.flatten = text ∧ AllRel (fun form seg => form = seg ∨ form = seg.map low) t.leaves segs := by
  have hl : LowerOk E text := by intro i; rw [hlow]; simp
  obtain ⟨c, d, _, _, h1, h2⟩ := C29_derivation E rules ok text hl fuel depth trees e h t ht
  obtain ⟨_, segs, g1, g2⟩ := derives_spell ok hlow h1 h2
  refine ⟨segs, by rw [g1]; simp, ?_⟩
  rw [ParseTree.leavesAll, ParseTree.leavesAll, List.append_nil] at g2
  exact g2

/-- The hypotheses hold for the example grammar; `aA` has a tree. -/
example : (parse exOracles 40 10 (Grammar.new exRules) ['a', 'A']).1.bind (fun r => .ok r.1.length) = .ok 5 := by decide +kernel

/-! ## C30 -/

/-- **C30.** Every derivation of the text from the category `s` is represented by a tree, up to rules with the same syntax. -/
theorem C30_complete (E : Oracles) (rules : List (GRule A)) (ok : RulesOk rules) (text : Str) (hl : LowerOk E text) (fuel depth : Nat)
    (trees : List (ParseTree A)) (e : ParseError) (h : (parse E fuel depth (Grammar.new rules) text).1 = .ok (trees, e))
    (c : Constituent) (hc : c.predicate = cRoot) (hp : c.pos = .relation) (d : DTree A) (hd : Derives E rules text [c] 0 text.length [d]) :
    ∃ t ∈ trees, TreesOf (fun r r' => r.equals r' = true) [d] [t] := by
  obtain ⟨chart, f, hr, _⟩ := parse_ok ok hl h
  exact roots_complete ok hl f hr ⟨hc, hp⟩ hd

/-- A derivation in the example. -/
example : Derives exOracles exRules ['A'] [exS] 0 1
    [.node (GRule.new exOracles.ruleHash exS [exNp] .none)
      [.node (GRule.new exOracles.ruleHash exNp [exW ['a']] .none) [.leaf (exW ['a']) ['a']]]] := by
  refine .node (j := 1) ⟨GRule.new exOracles.ruleHash exS [exNp] .none, by simp [exRules], ?_⟩ (by decide +kernel)
    (.node (j := 1) ⟨GRule.new exOracles.ruleHash exNp [exW ['a']] .none, by simp [exRules], ?_⟩ (by decide +kernel)
      (.leaf ⟨by decide, by decide, .inl ⟨rfl, rfl, by decide +kernel⟩⟩ (.nil 1)) (.nil 1)) (.nil 1)
  · decide +kernel
  · decide +kernel

/-! ## C61 -/

/-- **C61.** Without cycles of unit rules the parser returns: with enough steps and depth there is a result. -/
theorem C61_returns (E : Oracles) (rules : List (GRule A)) (ok : RulesOk rules) (wf : WellFounded (UnitStep rules)) (text : Str)
    (hl : LowerOk E text) : ∃ N, ∀ fuel depth, N ≤ fuel → N ≤ depth → ∃ r, (parse E fuel depth (Grammar.new rules) text).1 = .ok r := by
  obtain ⟨N, chart, hb⟩ := C31_terminates E rules ok text hl
  have f := (buildChart_inv (chartOk ok hl) (hb N (Nat.le_refl _))).finished (chartOk ok hl)
  obtain ⟨M, hM⟩ := extractRoots_total ok hl f wf
  refine ⟨max N M, ?_⟩
  intro fuel depth h1 h2
  obtain ⟨roots, hr⟩ := hM depth (by omega)
  simp only [parse, parseWith, hb fuel (by omega), Out.bind, hr]
  exact ⟨_, rfl⟩

example : RulesOk exRules ∧ WellFounded (UnitStep exRules) ∧ LowerOk exOracles ['a'] := ⟨exRules_ok, exRules_unit, exLower_ok _⟩

/-- The grammar `s -> s`, `s -> 'a'`. -/
def loopRules : List (GRule Unit) :=
  [GRule.new exOracles.ruleHash exS [exS] .none, GRule.new exOracles.ruleHash exS [exW ['a']] .none]

/-- A derivation of `a` for each height. -/
def loopTree : Nat → DTree Unit
  | 0 => .node (GRule.new exOracles.ruleHash exS [exW ['a']] .none) [.leaf (exW ['a']) ['a']]
  | n + 1 => .node (GRule.new exOracles.ruleHash exS [exS] .none) [loopTree n]

theorem loopTree_derives (n : Nat) : Derives exOracles loopRules ['a'] [exS] 0 1 [loopTree n] := by
  induction n with
  | zero =>
    refine .node (j := 1) ⟨GRule.new exOracles.ruleHash exS [exW ['a']] .none, by simp [loopRules], by decide +kernel⟩ (by decide +kernel)
      (.leaf ⟨by decide, by decide, .inl ⟨rfl, rfl, by decide +kernel⟩⟩ (.nil 1)) (.nil 1)
  | succ n ih =>
    exact .node (j := 1) ⟨GRule.new exOracles.ruleHash exS [exS] .none, by simp [loopRules], by decide +kernel⟩ (by decide +kernel) ih (.nil 1)

theorem loopTree_path {R : GRule Unit → GRule Unit → Prop} (n : Nat) : ∀ {t : ParseTree Unit}, TreesOf R [loopTree n] [t] → t.Path (n + 1) := by
  induction n with
  | zero => intro t _; exact .root t
  | succ n ih =>
    intro t h
    cases h with
    | @node _ _ _ us _ _ _ h1 _ =>
      obtain ⟨u, rfl⟩ : ∃ u, us = [u] := by
        generalize loopTree n = d at h1
        cases h1 with
        | node _ _ c => cases c; exact ⟨_, rfl⟩
        | leaf _ c => cases c; exact ⟨_, rfl⟩
      exact .down (by simp) (ih h1)

/-- With the cycle `s -> s` the parser never returns, whatever the depth: the extraction of trees recurses without end (in Python a
`RecursionError`). The condition in **C61** is needed. -/
theorem C61_cycle_never_returns (fuel depth : Nat) (r : List (ParseTree Unit) × ParseError) :
    (parse exOracles fuel depth (Grammar.new loopRules) ['a']).1 ≠ .ok r := by
  intro h
  have ok : RulesOk loopRules := by constructor <;> decide +kernel
  have key := fun n => C30_complete exOracles loopRules ok ['a'] (exLower_ok _) fuel depth r.1 r.2 h exS rfl rfl (loopTree n) (loopTree_derives n)
  -- the depths of the trees are bounded
  obtain ⟨B, hB⟩ : ∃ B, ∀ t ∈ r.1, ∀ m, t.Path m → m ≤ B := by
    have hdepth : ∀ t : ParseTree Unit, ∃ n, ∀ m, t.Path m → m ≤ n := fun t => ⟨_, (hasDepth_iff.2 rfl).2⟩
    generalize r.1 = l
    induction l with
    | nil => exact ⟨0, by simp⟩
    | cons t l ih =>
      obtain ⟨B, hB⟩ := ih
      obtain ⟨n, hn⟩ := hdepth t
      refine ⟨max B n, ?_⟩
      intro u hu m hm
      rcases List.mem_cons.1 hu with rfl | hu
      · have := hn m hm; omega
      · have := hB u hu m hm; omega
  obtain ⟨t, ht, hrep⟩ := key B
  have := hB t ht _ (loopTree_path B hrep)
  omega

/-! ## C33 -/

/-- The grammar object after the parses of the texts. -/
def parseHistory (E : Oracles) (fuel depth : Nat) (g : Grammar A) (texts : List Str) : Grammar A :=
  texts.foldl (fun g text => (parse E fuel depth g text).2) g

/-- **C33.** The result of a parse does not depend on the texts parsed before with the same grammar object. -/
theorem C33_no_memory (E : Oracles) (fuel depth fuel' depth' : Nat) (g : Grammar A) (texts : List Str) (text : Str) :
    (parse E fuel depth (parseHistory E fuel' depth' g texts) text).1 = (parse E fuel depth g text).1 := by
  have hh : ∀ (texts : List Str) (k : Nat), parseHistory E fuel' depth' (afterParses E g k) texts = afterParses E g (k + texts.length) := by
    intro texts
    induction texts with
    | nil => intro k; rfl
    | cons t ts ih =>
      intro k
      have : parseHistory E fuel' depth' (afterParses E g k) (t :: ts) = parseHistory E fuel' depth' (afterParses E g (k + 1)) ts := rfl
      rw [this, ih, List.length_cons]
      congr 1; omega
  have := hh texts 0
  simp only [afterParses, Nat.zero_add] at this
  simp only [parse]
  rw [this]
  have h2 : addStartRules E (afterParses E g texts.length) = afterParses E g (texts.length + 1) := rfl
  rw [h2]
  simp only [parseWith, buildChart_copies (copies_after E g texts.length)]

/-- **C33.** The same for the block `BasicParser`. -/
theorem C33_no_memory_block (E : Oracles) (fuel depth fuel' depth' : Nat) (g : Grammar A) (texts : List Str) (text : Str) :
    (basicParse E fuel depth (parseHistory E fuel' depth' g texts) text).1 = (basicParse E fuel depth g text).1 := by
  simp only [basicParse, C33_no_memory]

/-- The grammar does grow with each parse. -/
example : ((parseHistory exOracles 5 5 (Grammar.new exRules) [['a'], ['b']]).findRules cDelta 1).length = 2 := by decide +kernel

/-! ## C34 -/

/-- **C34.** There is an error iff there is no tree; the error is the text after the longest consumed prefix if there is any, else that
there is no sentence (empty text) or that it is not understood. -/
theorem C34_error (E : Oracles) (rules : List (GRule A)) (ok : RulesOk rules) (names : NamesOk rules) (text : Str) (hl : LowerOk E text)
    (fuel depth : Nat) (trees : List (ParseTree A)) (e : ParseError)
    (h : (parse E fuel depth (Grammar.new rules) text).1 = .ok (trees, e)) :
    (e = .none ↔ trees ≠ []) ∧
    (trees = [] → ∃ K, Consumed E rules text K ∧ (∀ k, Consumed E rules text k → k ≤ K) ∧
      e = if K < text.length then .unknownWord ((text.drop K).take 9 ++ [' ', '.', '.', '.'])
          else if text = [] then .noSentence else .notUnderstood) := by
  obtain ⟨chart, f, _, he⟩ := parse_ok ok hl h
  constructor
  · rw [he]
    cases trees with
    | nil =>
      simp only [List.length_nil, if_true, ne_eq, not_true, iff_false]
      split
      · simp
      · split <;> simp
    | cons t ts => simp
  · rintro rfl
    obtain ⟨K, h1, h2, h3⟩ := findUnknownWord_spec ok hl names f
    refine ⟨K, h1, h2, ?_⟩
    rw [he]
    simp only [List.length_nil, if_true, h3]
    by_cases hk : K < text.length
    · simp [hk]
    · simp [hk, List.length_eq_zero_iff]

/-- The names in the example grammar are consistent. -/
theorem exNames_ok : NamesOk exRules := by
  have hocc : ∀ c, Occurs exRules c → c = exS ∨ c = exNp ∨ c = exW ['a'] ∨ c = exRegexp ['x'] := by
    have h : ∀ r ∈ exRules, ∀ c, c ∈ r.ante :: r.cons → c ∈ [exS, exNp, exW ['a'], exRegexp ['x']] := by
      intro r hr c hc
      have hall : ∀ r ∈ exRules, ∀ c ∈ r.ante :: r.cons, c ∈ [exS, exNp, exW ['a'], exRegexp ['x']] := by decide +kernel
      exact hall r hr c hc
    rintro c ⟨r, hr, hc⟩
    have := h r hr c (by rcases hc with rfl | hc <;> simp [*])
    simpa using this
  constructor
  · intro x y hx hy hp hq
    rcases hocc x hx with rfl | rfl | rfl | rfl <;> rcases hocc y hy with rfl | rfl | rfl | rfl <;> first | rfl | (revert hp hq; decide)
  · intro c hc hp
    rcases hocc c hc with rfl | rfl | rfl | rfl
    · exact absurd rfl hp
    · exact absurd rfl hp
    · decide +kernel
    · decide +kernel

/-- An unknown word after a consumed prefix. -/
example : (parse { exOracles with regex := fun _ _ => none } 40 10 (Grammar.new exRules) ['a', 'b', 'c']).1.bind (fun r => .ok r.2) =
    .ok (.unknownWord ['b', 'c', ' ', '.', '.', '.']) := by decide +kernel

/-- The grammar `s -> 'foo'`, `foo -> 'bar'`, in which a word is named like a rule. -/
def namedRules : List (GRule Unit) :=
  [GRule.new exOracles.ruleHash exS [exW ['f', 'o', 'o']] .none,
   GRule.new exOracles.ruleHash ⟨['f', 'o', 'o'], [], .relation, false, false⟩ [exW ['b', 'a', 'r']] .none]

/-- The condition on names is needed: the rules of `foo` are tried where the word `foo` is expected, so `bar` counts as consumed although
no derivation can start with it. -/
theorem C34_names : (parse exOracles 40 10 (Grammar.new namedRules) ['b', 'a', 'r']).1.bind (fun r => .ok r.2) = .ok .notUnderstood := by
  decide +kernel

/-! ## C39 -/

/-- Oracles with a regular expression `ab` that matches `ab` only. -/
def abOracles : Oracles := { exOracles with regex := fun p s => if p = ['a', 'b'] ∧ s.take 2 = ['a', 'b'] then some 2 else none }

/-- **C39** is false: with the rule `s -> /ab/ 'b'` the text `ab` has a tree, whose first leaf is `a`; but `ab` does not match `a`. -/
theorem C39_false : abOracles.regex ['a', 'b'] ['a'] = none ∧
    (parse abOracles 40 10 (Grammar.new [GRule.new exOracles.ruleHash exS [exRegexp ['a', 'b'], exW ['b']] (.none : RuleSem Unit)])
      ['a', 'b']).1.bind (fun r => .ok (r.1.map fun t => t.leaves)) = .ok [[['a'], ['b']]] := by decide +kernel

/-- The tree occurs in one of the trees. -/
inductive InTrees (u : ParseTree A) : List (ParseTree A) → Prop
  | here {ts} : InTrees u (u :: ts)
  | later {t ts} : InTrees u ts → InTrees u (t :: ts)
  | inside {cat children form r ts} : InTrees u children → InTrees u (.node cat children form r :: ts)

theorem derives_regexp {E : Oracles} {rules : List (GRule A)} (ok : RulesOk rules) {text : Str} {cs : List Constituent} {i k : Nat}
    {ds : List (DTree A)} (h : Derives E rules text cs i k ds) : ∀ {ts : List (ParseTree A)}, TreesOf Eq ds ts →
    ∀ {p form : Str} {r : GRule A} {children : List (ParseTree A)}, InTrees (.node p children form r) ts → r.ante.pos = .regexp →
    ∃ i m, E.regex p (text.drop i) = some m ∧ form = (text.drop i).take form.length ∧ 0 < form.length ∧ form.length ≤ m := by
  induction h with
  | nil i => intro ts h p form r children hin; cases h; cases hin
  | @leaf c cs i j k form ds htok _ ih =>
    intro ts h p form r children hin hpos
    cases h with
    | leaf hr hrest =>
      cases hin with
      | here =>
        have hs := Constituent.equals_iff.1 hr.1
        simp only [Constituent.syn, Prod.mk.injEq] at hs
        rw [hs.2.2] at hpos
        obtain ⟨_, _, ⟨hp, _⟩ | ⟨_, hne, m, hm, hle, hf⟩⟩ := htok
        · rw [hpos] at hp; simp at hp
        · exact ⟨i, m, hm, hf, List.length_pos_iff.2 hne, hle⟩
      | later hin => exact ih hrest hin hpos
      | inside hin => cases hin
  | @node c cs i j k rule ds es hu he hd _ ih1 ih2 =>
    intro ts h p form r children hin hpos
    cases h with
    | node hr hrep hrest =>
      subst hr
      cases hin with
      | here =>
        obtain ⟨r0, h0, ha, _⟩ := hu.cons_mem
        rw [ha, ok.relation r0 h0] at hpos
        simp at hpos
      | later hin => exact ih2 hrest hin hpos
      | inside hin => exact ih1 hrep hin hpos

/-- **C39**, what holds: a regular-expression leaf is a non-empty initial part of what the expression matches somewhere in the text.
Missing: that the expression matches this part. -/
theorem C39_partial (E : Oracles) (rules : List (GRule A)) (ok : RulesOk rules) (text : Str) (hl : LowerOk E text) (fuel depth : Nat)
    (trees : List (ParseTree A)) (e : ParseError) (h : (parse E fuel depth (Grammar.new rules) text).1 = .ok (trees, e))
    (p form : Str) (children : List (ParseTree A)) (r : GRule A) (hin : InTrees (.node p children form r) trees) (hr : r.ante.pos = .regexp) :
    ∃ i m, E.regex p (text.drop i) = some m ∧ form = (text.drop i).take form.length ∧ 0 < form.length ∧ form.length ≤ m := by
  have : ∃ t ∈ trees, InTrees (.node p children form r) [t] := by
    clear h
    generalize hu : ParseTree.node p children form r = u at hin
    induction hin with
    | here => exact ⟨u, by simp, .here⟩
    | later _ ih =>
      obtain ⟨t, h1, h2⟩ := ih
      exact ⟨t, List.mem_cons_of_mem _ h1, h2⟩
    | inside h _ => exact ⟨_, List.mem_cons_self .., .inside h⟩
  obtain ⟨t, ht, hin⟩ := this
  obtain ⟨c, d, _, _, h1, h2⟩ := C29_derivation E rules ok text hl fuel depth trees e h t ht
  exact derives_regexp ok h1 h2 hin hr

/-- **C39** for expressions that match every non-empty initial part of what they match, such as `[a-z]+`: the leaf is matched as a whole. -/
theorem C39_prefix_closed (E : Oracles) (rules : List (GRule A)) (ok : RulesOk rules) (text : Str) (hl : LowerOk E text) (fuel depth : Nat)
    (trees : List (ParseTree A)) (e : ParseError) (h : (parse E fuel depth (Grammar.new rules) text).1 = .ok (trees, e))
    (p form : Str) (children : List (ParseTree A)) (r : GRule A) (hin : InTrees (.node p children form r) trees) (hr : r.ante.pos = .regexp)
    (hclosed : ∀ s m, E.regex p s = some m → ∀ l, 0 < l → l ≤ m → E.regex p (s.take l) = some (s.take l).length) :
    E.regex p form = some form.length := by
  obtain ⟨i, m, h1, h2, h3, h4⟩ := C39_partial E rules ok text hl fuel depth trees e h p form children r hin hr
  have := hclosed _ m h1 form.length h3 h4
  rwa [← h2] at this

example : ∀ s m, exOracles.regex ['x'] s = some m → ∀ l, 0 < l → l ≤ m → exOracles.regex ['x'] (s.take l) = some (s.take l).length := by
  intro s m _ l _ _; simp [exOracles]

end Verif

import Verif.Props.Quantifiers
import Verif.Props.EndToEnd

/-!
# C77: from text to answers, for grammars with quantifiers
-/

namespace Verif

/-! ## Specification: grammars whose rules build meanings from parts -/

/-- What the rules of a category make: values with some property, such as numbers, or phrases with a signature. -/
inductive Kind where
  | value (ok : Value → Prop)
  | phrase (s : Sig)

/-- The kind of a category with a number of arguments is given by `kinds`; this is the signature of the constituent. -/
def sigOf (kinds : Str → Nat → Kind) (c : Constituent) : Sig := match kinds c.predicate c.args.length with
  | .phrase s => s
  | .value _ => ⟨[], [], [], true⟩

/-- `ws` are values that the consequents may have: a text for each regular expression, and a value for each category with values. -/
def ValuesFor (kinds : Str → Nat → Kind) : List Constituent → List Value → Prop
  | [], ws => ws = []
  | c :: cs, ws => match c.pos with
    | .word => ValuesFor kinds cs ws
    | .regexp => ∃ w us, ws = .str (String.ofList w) :: us ∧ ValuesFor kinds cs us
    | .relation => match kinds c.predicate c.args.length with
      | .value ok => ∃ v us, ws = v :: us ∧ ok v ∧ ValuesFor kinds cs us
      | .phrase _ => ValuesFor kinds cs ws

/-- The arguments with which the function `sem` of a rule is called, when `ws` are the values and `vs` the composed meanings of its consequents. -/
def ruleArgs (kinds : Str → Nat → Kind) : List Constituent → List Value → List Value → List Value
  | c :: cs, ws, v :: vs => match c.pos with
    | .word => ruleArgs kinds cs ws vs
    | .regexp => match ws with
      | w :: ws => w :: ruleArgs kinds cs ws vs
      | [] => []
    | .relation => match kinds c.predicate c.args.length with
      | .value _ => match ws with
        | w :: ws => w :: ruleArgs kinds cs ws vs
        | [] => []
      | .phrase _ => v :: ruleArgs kinds cs ws vs
  | _, _, _ => []

/-- What a rule with signature `sg` is checked against. -/
def ruleTyping (ar : String → Option Nat) (kinds : Str → Nat → Kind) (sg : Sig) (r : GRule Attachment) : Typing where
  ar := ar
  args := consArgs r
  sig := fun i => match r.cons[i]? with
    | some c => sigOf kinds c
    | none => ⟨[], [], [], true⟩
  ante := argNames r.ante
  slot := sg.slot

/-- The parts are as they should be. `R` are the names that are used for slots. -/
structure RulePartsOk (ar : String → Option Nat) (R : List String) (kinds : Str → Nat → Kind) (sg : Sig) (r : GRule Attachment)
    (names : List String) (e : List Part) : Prop where
  fits : fitsRule (ruleTyping ar kinds sg r) sg e = true
  slots : names.length = sg.slots.length
  nodup : names.Nodup
  reserved : ∀ s ∈ names, s ∈ R
  holes : ∀ j ∈ holesAll e, j < names.length
  texts : ∀ t ∈ textsAll e, t ∉ R
  kids : ∀ i ∈ kidsAll e, ∃ k s, r.cons[i]? = some k ∧ k.pos = .relation ∧ kinds k.predicate k.args.length = .phrase s
  vars : ∀ y ∈ everyVarAll (consArgs r) (argNames r.ante) e, y ∈ formalNames r ∨ (names = [] ∧ y ∈ e.flatMap outerVars)
  own : ∀ y ∈ everyVarAll (consArgs r) (argNames r.ante) e, isGenName y = false

/-- The rule makes what `spec` says, a value or parts, whatever the values of its consequents, and has no `exec` and no `dialog`. -/
structure SpecRule (ar : String → Option Nat) (R : List String) (kinds : Str → Nat → Kind) (spec : GRule Attachment → List Value → RuleParts)
    (r : GRule Attachment) : Prop where
  names : ∀ x ∈ formalNames r, isGenName x = false
  nodup : (argNames r.ante).Nodup
  value : ∀ ws v, ValuesFor kinds r.cons ws → spec r ws = .value v → deepVars v = [] ∧
    (∃ ok, kinds r.ante.predicate r.ante.args.length = .value ok ∧ ok v) ∧
    ∀ f, semOf r.sem = some f → ∀ vs s, vs.length = r.cons.length → f (ruleArgs kinds r.cons ws vs) = .ok s → s = v
  parts : ∀ ws ns e, ValuesFor kinds r.cons ws → spec r ws = .parts ns e → RulePartsOk ar R kinds (sigOf kinds r.ante) r ns e ∧
    (∃ s, kinds r.ante.predicate r.ante.args.length = .phrase s) ∧
    ∀ f, semOf r.sem = some f → ∀ vs us s, vs.length = r.cons.length → evalAll ns (fun i => vs.getD i .none) e = .ok us →
      f (ruleArgs kinds r.cons ws vs) = .ok s → s = wrapUp ns us
  noExec : execOf r.sem = none
  noDialog : ∀ sems, dialogOf r.sem sems = .ok []

/-! ## Proofs -/

/-- What is known about the trees that represent a derivation from constituents. -/
structure TreesSpec (ar : String → Option Nat) (P : Program) (R : List String) (kinds : Str → Nat → Kind)
    (spec : GRule Attachment → List Value → RuleParts) (cs : List Constituent) (ts : List (ParseTree Attachment)) : Prop where
  good : SpecTrees ar P R (fun r => sigOf kinds r.ante) spec ts
  silent : SilentAll ts
  length : ts.length = cs.length
  ante : ∀ (i : Nat) t c, ts[i]? = some t → cs[i]? = some c → t.rule.ante.equals c = true
  inner : ∀ (i : Nat) t c, ts[i]? = some t → cs[i]? = some c → c.pos = .relation → t.children ≠ []
  phrase : ∀ (i : Nat) c s, cs[i]? = some c → c.pos = .relation → kinds c.predicate c.args.length = .phrase s →
    ∃ D, (nodeMeanings P spec ts)[i]? = some (some (.phrase D))
  values : ValuesFor kinds cs (valuesIn (nodeMeanings P spec ts))
  args : ∀ vs, vs.length = cs.length → childArgs (nodeMeanings P spec ts) vs = ruleArgs kinds cs (valuesIn (nodeMeanings P spec ts)) vs

theorem equals_iff {a b : Constituent} (h : a.equals b = true) : a.predicate = b.predicate ∧ a.args.length = b.args.length ∧ a.pos = b.pos := by
  simp only [Constituent.equals] at h
  split at h
  · cases h
  · split at h
    · cases h
    · split at h
      · cases h
      · simp_all

theorem getElem?_cons_cases {α β : Type} {p : α → β → Prop} {a : α} {as : List α} {b : β} {bs : List β} (h0 : p a b)
    (h : ∀ (i : Nat) x y, as[i]? = some x → bs[i]? = some y → p x y) : ∀ (i : Nat) x y, (a :: as)[i]? = some x → (b :: bs)[i]? = some y → p x y := by
  intro i x y hx hy
  cases i with
  | zero => simp only [List.getElem?_cons_zero, Option.some.injEq] at hx hy; subst hx; subst hy; exact h0
  | succ i => exact h i x y hx hy

section
variable {ar : String → Option Nat} {P : Program} {R : List String} {kinds : Str → Nat → Kind} {spec : GRule Attachment → List Value → RuleParts}

/-- The parts of a node, from what is known about its children. -/
theorem partsOk_of {r : GRule Attachment} {us : List (ParseTree Attachment)} (hu : TreesSpec ar P R kinds spec r.cons us) {ns : List String} {e : List Part}
    {sg : Sig} (h1 : RulePartsOk ar R kinds sg r ns e) : PartsOk ar R (fun r => sigOf kinds r.ante) us (nodeMeanings P spec us) sg r ns e := by
  have hty : typingOf ar (fun r => sigOf kinds r.ante) us sg r = ruleTyping ar kinds sg r := by
    simp only [typingOf, ruleTyping, Typing.mk.injEq, true_and, and_true]
    funext i
    cases h : r.cons[i]? with
    | none =>
      have : us[i]? = none := by
        rw [List.getElem?_eq_none_iff] at h ⊢
        rw [hu.length]
        exact h
      simp [this]
    | some c =>
      have hi : i < us.length := by
        rw [hu.length]
        exact (List.getElem?_eq_some_iff.1 h).1
      obtain ⟨e1, e2, _⟩ := equals_iff (hu.ante i us[i] c (List.getElem?_eq_getElem hi) h)
      simp only [List.getElem?_eq_getElem hi, sigOf, e1, e2]
  refine ⟨by rw [hty]; exact h1.fits, h1.slots, h1.nodup, h1.reserved, h1.holes, h1.texts, fun i hi => ?_, h1.vars, h1.own⟩
  obtain ⟨k, s, k1, k2, k3⟩ := h1.kids i hi
  have hlt : i < us.length := by
    rw [hu.length]
    exact (List.getElem?_eq_some_iff.1 k1).1
  obtain ⟨D, hD⟩ := hu.phrase i k s k1 k2 k3
  obtain ⟨_, e2, _⟩ := equals_iff (hu.ante i us[i] k (List.getElem?_eq_getElem hlt) k1)
  exact ⟨us[i], k, D, List.getElem?_eq_getElem hlt, k1, hu.inner i _ _ (List.getElem?_eq_getElem hlt) k1 k2, hD, e2.symm⟩

/-- A node, from what is known about its children. -/
theorem specNode_of {r : GRule Attachment} (hr : SpecRule ar R kinds spec r) {us : List (ParseTree Attachment)} (hu : TreesSpec ar P R kinds spec r.cons us) :
    SpecNode ar P R (fun r => sigOf kinds r.ante) spec us r := by
  refine ⟨hu.length.symm, hr.names, hr.nodup, fun v hv => ?_, fun ns e he => ?_⟩
  · obtain ⟨h1, _, h3⟩ := hr.value _ v hu.values hv
    refine ⟨h1, fun f hf vs s hl hs => h3 f hf vs s (hl.trans hu.length) ?_⟩
    rw [← hu.args vs (hl.trans hu.length)]
    exact hs
  · obtain ⟨h1, _, h3⟩ := hr.parts _ ns e hu.values he
    refine ⟨partsOk_of hu h1, fun f hf vs us' s hl hus hs => h3 f hf vs us' s (hl.trans hu.length) hus ?_⟩
    rw [← hu.args vs (hl.trans hu.length)]
    exact hs

/-- The trees of the parser are as they should be, if the rules for their categories are: those in `T`, which has all that these refer to. -/
theorem derived_spec_in {E : Oracles} {rules : List (GRule Attachment)} (ok : RulesOk rules) {T : Str → Prop}
    (hc : ∀ r, Usable rules r → T r.ante.predicate → SpecRule ar R kinds spec r ∧ ∀ c ∈ r.cons, c.pos = .relation → T c.predicate)
    {text : Str} {cs : List Constituent} {i k : Nat} {ds : List (DTree Attachment)} (hd : Derives E rules text cs i k ds) :
    (∀ c ∈ cs, c.pos = .relation → T c.predicate) → ∀ ts, TreesOf Eq ds ts → TreesSpec ar P R kinds spec cs ts := by
  induction hd with
  | nil i =>
    intro hT ts ht
    cases ht
    exact ⟨trivial, trivial, rfl, by simp, by simp, by simp, rfl, fun vs _ => rfl⟩
  | @leaf c cs i j k form ds htok hd ih =>
    intro hT ts ht
    cases ht with
    | @leaf _ _ r _ ts hr ht =>
      have h := ih (fun c hc => hT c (List.mem_cons_of_mem _ hc)) ts ht
      have hnr : c.pos ≠ .relation := by rcases htok.2.2 with h | h <;> rw [h.1] <;> simp
      refine ⟨⟨by simp [SpecTree, SpecTrees], h.good⟩, ⟨by simp [Silent, SilentAll], h.silent⟩, by simp [h.length],
        getElem?_cons_cases (by exact hr.1) h.ante, getElem?_cons_cases (fun hp => absurd hp hnr) h.inner, ?_, ?_, ?_⟩
      · intro i c' s h1 h2 h3
        cases i with
        | zero => simp only [List.getElem?_cons_zero, Option.some.injEq] at h1; subst h1; exact absurd h2 hnr
        | succ i => exact h.phrase i c' s h1 h2 h3
      · rcases htok.2.2 with hp | hp
        · have hv := h.values
          simp only [ValuesFor, hp.1, nodeMeanings, List.isEmpty_nil, if_true, leafSem, hr.2, leafAttached]
          simpa [valuesIn, semOf] using hv
        · simp only [ValuesFor, hp.1, nodeMeanings, List.isEmpty_nil, if_true, leafSem, hr.2, leafAttached]
          exact ⟨form, _, by simp [valuesIn, semOf], h.values⟩
      · intro vs hvs
        obtain ⟨v, vs, rfl⟩ : ∃ v us, vs = v :: us := by
          cases vs with
          | nil => simp at hvs
          | cons v us => exact ⟨v, us, rfl⟩
        simp only [List.length_cons, Nat.add_right_cancel_iff] at hvs
        have := h.args vs hvs
        rcases htok.2.2 with hp | hp
        · simp only [ruleArgs, hp.1, nodeMeanings, List.isEmpty_nil, if_true, leafSem, hr.2, leafAttached]
          simpa [childArgs, valuesIn, semOf] using this
        · simp only [ruleArgs, hp.1, nodeMeanings, List.isEmpty_nil, if_true, leafSem, hr.2, leafAttached]
          simpa [childArgs, valuesIn, semOf] using this
  | @node c cs i j k r ds es hu heq hd he ihd ihe =>
    intro hT ts ht
    cases ht with
    | @node _ r' _ us _ ts hrr hus hts =>
      subst hrr
      have h := ihe (fun c hc => hT c (List.mem_cons_of_mem _ hc)) ts hts
      have hrel' : r.ante.pos = .relation := by obtain ⟨r0, hr0, hv⟩ := hu; rw [(C36_mandatory r0 r hv).1]; exact ok.relation r0 hr0
      obtain ⟨hcr, hcons⟩ := hc r hu (by
        obtain ⟨e1, _, e3⟩ := equals_iff heq
        rw [e1]
        exact hT c List.mem_cons_self (e3 ▸ hrel'))
      have hk := ihd hcons us hus
      have hnode := specNode_of hcr hk
      obtain ⟨r0, hr0, hv⟩ := hu
      have hcne : r.cons ≠ [] := ok.cons_ne r0 hr0 r hv
      have hne : us ≠ [] := by
        intro e
        have := hk.length
        rw [e] at this
        exact hcne (List.length_eq_zero_iff.1 this.symm)
      have hrel : r.ante.pos = .relation := by rw [(C36_mandatory r0 r hv).1]; exact ok.relation r0 hr0
      obtain ⟨e1, e2, e3⟩ := equals_iff heq
      have hpos : c.pos = .relation := e3 ▸ hrel
      have hemp : us.isEmpty = false := by cases us <;> simp_all
      have hmean : ∀ M, nodeMeaning P spec (.node r.ante.predicate us [] r) = M →
          (∃ v ok, M = .value v ∧ kinds c.predicate c.args.length = .value ok ∧ ok v) ∨ ∃ D s, M = .phrase D ∧ kinds c.predicate c.args.length = .phrase s := by
        rintro M rfl
        simp only [nodeMeaning]
        cases hs : spec r (valuesIn (nodeMeanings P spec us)) with
        | value v =>
          obtain ⟨_, ⟨okv, k1, k2⟩, _⟩ := hcr.value _ v hk.values hs
          exact .inl ⟨v, okv, rfl, by rw [← e1, ← e2]; exact k1, k2⟩
        | parts ns e =>
          obtain ⟨_, ⟨s, k1⟩, _⟩ := hcr.parts _ ns e hk.values hs
          exact .inr ⟨_, s, rfl, by rw [← e1, ← e2]; exact k1⟩
      refine ⟨⟨⟨fun _ => hnode, hk.good⟩, h.good⟩, ⟨⟨fun _ => ⟨hcr.noExec, hcr.noDialog⟩, hk.silent⟩, h.silent⟩, by simp [h.length],
        getElem?_cons_cases (by exact heq) h.ante, getElem?_cons_cases (fun _ => hne) h.inner, ?_, ?_, ?_⟩
      · intro i c' s h1 h2 h3
        cases i with
        | zero =>
          simp only [List.getElem?_cons_zero, Option.some.injEq] at h1
          subst h1
          simp only [nodeMeanings, hemp, Bool.false_eq_true, if_false, List.getElem?_cons_zero, Option.some.injEq]
          rcases hmean _ rfl with ⟨_, _, _, hm, _⟩ | ⟨D, _, hm, _⟩
          · rw [h3] at hm; cases hm
          · exact ⟨D, hm⟩
        | succ i => exact h.phrase i c' s h1 h2 h3
      · simp only [ValuesFor, hpos, nodeMeanings, hemp, Bool.false_eq_true, if_false]
        rcases hmean _ rfl with ⟨v, okv, hm, hkd, hv⟩ | ⟨D, s, hm, hkd⟩
        · rw [hkd, hm]
          exact ⟨v, _, by simp [valuesIn], hv, h.values⟩
        · rw [hkd, hm]
          have := h.values
          simpa [valuesIn] using this
      · intro vs hvs
        obtain ⟨v, vs, rfl⟩ : ∃ v us, vs = v :: us := by
          cases vs with
          | nil => simp at hvs
          | cons v us => exact ⟨v, us, rfl⟩
        simp only [List.length_cons, Nat.add_right_cancel_iff] at hvs
        have := h.args vs hvs
        simp only [ruleArgs, hpos, nodeMeanings, hemp, Bool.false_eq_true, if_false]
        rcases hmean _ rfl with ⟨v, okv, hm, hkd, hv⟩ | ⟨D, s, hm, hkd⟩
        · rw [hkd, hm]
          simpa [childArgs, valuesIn] using this
        · rw [hkd, hm]
          simpa [childArgs, valuesIn] using this

/-- The trees of the parser are as they should be, if the rules of the grammar are. -/
theorem derived_spec {E : Oracles} {rules : List (GRule Attachment)} (ok : RulesOk rules) (hc : ∀ r, Usable rules r → SpecRule ar R kinds spec r)
    {text : Str} {cs : List Constituent} {i k : Nat} {ds : List (DTree Attachment)} (hd : Derives E rules text cs i k ds) :
    ∀ ts, TreesOf Eq ds ts → TreesSpec ar P R kinds spec cs ts :=
  derived_spec_in ok (T := fun _ => True) (fun r hr _ => ⟨hc r hr, fun _ _ _ => trivial⟩) hd fun _ _ _ => trivial

end

section
variable {W : Type} {ar : String → Option Nat} {tables : List (Dict (List (List Value)))} {rs : List HornRule}

/-- **C77** Entering a text, in a session in which texts were entered before, over stored rows and rules, with a grammar whose rules build
meanings from atoms, comparisons, negation, numerals, `all` and templates. If this returns, there are two cases. Either there is no result,
and the text has no derivation. Or there is a derivation of the text such that its tree is first in rank, the result is a list of answers,
the world is as it was, and the values of the root variables in the answers are exactly the values that the sentence is true of. In
particular there are answers exactly if it is true of some values. The session can be continued with other texts. -/
theorem C77_text_to_answers (K : KnowledgeBase W ar tables rs) (hrr : HeadsBound rs) (hcore : ∀ p ∈ coreNames, NotDefined K.others K.world p)
    {R : List String} {kinds : Str → Nat → Kind} {spec : GRule Attachment → List Value → RuleParts}
    (E : Oracles) (rules : List (GRule Attachment)) (ok : RulesOk rules) (hspec : ∀ r, Usable rules r → SpecRule ar R kinds spec r)
    (hroot : ∀ r, Usable rules r → r.ante.predicate = cRoot → ∃ s, kinds cRoot r.ante.args.length = .phrase s ∧ RootSig s)
    (text : Str) (hl : LowerOk E (normalizeSpace text)) (fuel depth n : Nat)
    {fuel' depth' : Nat} (texts : List Str) {s : Session W} (hg : s.grammar = parseHistory E fuel' depth' (Grammar.new rules) texts)
    (hw : s.world = K.world) {st : Request (Product (ParseTree Attachment)) × Session W} {res : Option (Product (ParseTree Attachment))}
    (h : enter (solverAt K.modules n).inSession (sentencePipeline E fuel depth none (solverAt K.modules n)) (Request.new text, s) = .ok st res) :
    st.2.grammar = parseHistory E fuel' depth' (Grammar.new rules) (texts ++ [normalizeSpace text]) ∧
    ((res = none ∧ ∀ d, ¬ WholeDerivation E rules (normalizeSpace text) d) ∨
    ∃ t d bs, WholeDerivation E rules (normalizeSpace text) d ∧ TreesOf Eq [d] [t] ∧
      (∀ d', WholeDerivation E rules (normalizeSpace text) d' → ∃ t', TreesOf (fun r r' => r.equals r' = true) [d'] [t'] ∧
        (t' = t ∨ RankedBefore t t')) ∧
      res = some (.executed (.rows bs)) ∧ st.2.world = K.world ∧
      (bs ≠ [] ↔ ∃ vals : List Value, vals.length = t.rule.ante.args.length ∧ (∀ v ∈ vals, Plain v) ∧
        SentenceTrue (program tables rs) spec t vals) ∧
      ∃ product : ComposerProduct, st.1.current 1 = some (.composed product) ∧ ∃ roots, roots = product.returnVariables ∧
        roots = (List.range t.rule.ante.args.length).map (fun j => genName (s.gen.number + j + 1)) ∧
        (∀ b ∈ bs, ∀ x ∈ flagged roots (sigOf kinds t.rule.ante).after, b.has x = true) ∧
        ∀ vals : List Value, vals.length = roots.length → (∀ v ∈ vals, Plain v) →
        ((∃ b ∈ bs, Fits b roots vals) ↔ SentenceTrue (program tables rs) spec t vals)) := by
  obtain ⟨hgr, h⟩ := enter_sentence h
  refine ⟨?_, ?_⟩
  · rw [hgr, hg, parseHistory, parseHistory, List.foldl_append]; rfl
  rw [hg, C33_no_memory_block] at h
  rcases h with ⟨e, hp, rfl, _⟩ | ⟨t, rest, g, roots, c, w1, w2, w3, forms, o, out, hp, hcomp, hforms, hwr, hexec, hsolve, _, hcur, rfl⟩
  · left
    refine ⟨rfl, fun d ⟨c, hc1, hc2, hd⟩ => ?_⟩
    simp only [basicParse] at hp
    cases hr : (parse E fuel depth (Grammar.new rules) (normalizeSpace text)).1 with
    | err e => rw [hr] at hp; simp [Out.bind] at hp
    | oof => rw [hr] at hp; simp [Out.bind] at hp
    | ok p =>
      obtain ⟨trees, e'⟩ := p
      rw [hr] at hp
      simp only [Out.bind, Out.ok.injEq, Prod.mk.injEq] at hp
      have hperm := C38_permutation trees
      rw [hp.1] at hperm
      obtain ⟨t, ht, _⟩ := C30_complete E rules ok _ hl fuel depth trees e' hr c hc1 hc2 d hd
      have := hperm.mem_iff.2 ht
      simp at this
  · right
    simp only [basicParse] at hp
    cases hr : (parse E fuel depth (Grammar.new rules) (normalizeSpace text)).1 with
    | err e => rw [hr] at hp; simp [Out.bind] at hp
    | oof => rw [hr] at hp; simp [Out.bind] at hp
    | ok p =>
      obtain ⟨trees, e'⟩ := p
      rw [hr] at hp
      simp only [Out.bind, Out.ok.injEq, Prod.mk.injEq] at hp
      have hperm := C38_permutation trees
      have hord := C38_order trees
      rw [hp.1] at hperm hord
      obtain ⟨c0, d, hc1, hc2, hd, htree⟩ := C29_derivation E rules ok _ hl fuel depth trees e' hr t (hperm.mem_iff.1 (by simp))
      have hts : TreesSpec ar (program tables rs) R kinds spec [c0] [t] := derived_spec ok hspec hd [t] htree
      have hne : t.children ≠ [] := hts.inner 0 t c0 rfl rfl hc2
      obtain ⟨e1, e2, e3⟩ := equals_iff (hts.ante 0 t c0 rfl rfl)
      obtain ⟨sg, hsg, hrs⟩ : ∃ sg, kinds cRoot t.rule.ante.args.length = .phrase sg ∧ RootSig sg := by
        cases hd with
        | leaf htok _ => rcases htok.2.2 with h | h <;> rw [h.1] at hc2 <;> cases hc2
        | node hu _ _ _ =>
          cases htree with
          | node hrr _ _ =>
            subst hrr
            exact hroot _ hu (e1.trans hc1)
      have hkc : kinds c0.predicate c0.args.length = .phrase sg := by rw [hc1, ← e2]; exact hsg
      obtain ⟨D, hD⟩ := hts.phrase 0 c0 sg rfl hc2 hkc
      have hD' : nodeMeaning (program tables rs) spec t = .phrase D := by
        match t, hne, hD with
        | .node cat cs form r, hne, hD =>
          have : cs.isEmpty = false := by cases cs <;> simp_all [ParseTree.children]
          simpa [nodeMeanings, this] using hD
      have hsig : sigOf kinds t.rule.ante = sg := by simp only [sigOf, e1.trans hc1, hsg]
      have hrs' : RootSig (sigOf kinds t.rule.ante) := by rw [hsig]; exact hrs
      obtain ⟨g1, h1, h2, _⟩ := composeSentence_parts hcomp
      obtain ⟨i1, i2⟩ := compose_silent _ _ _ _ _ hne hts.silent.1 h2
      rw [i1] at hwr
      rw [i2] at hexec
      simp only [writeAll, M.pure_eq_ok] at hwr
      obtain ⟨rfl, _⟩ := hwr
      have hw3 : w1 = w3 := by
        cases n with
        | zero => cases hexec
        | succ n =>
          have : (solverAt K.modules (n + 1)).solve (.list []) [] w1 = .ok w1 (.rows [[]]) := rfl
          rw [this] at hexec
          cases hexec; rfl
      subst hw3
      simp only [composerForms, M.pure_eq_ok] at hforms
      obtain ⟨hw1, rfl⟩ := hforms
      simp only [ComposerProduct.lastIteration, List.foldl_cons, List.foldl_nil] at hsolve
      rw [← hw1, hw] at hsolve
      obtain ⟨hw2, bs, rfl, hb, hans⟩ := C76_answers (R := R) (sigs := fun r => sigOf kinds r.ante) K hrr hcore hne hts.good.1 hrs' hD' hcomp hsolve
      have hyn := C76_yes_no (R := R) (sigs := fun r => sigOf kinds r.ante) K hrr hcore hne hts.good.1 hrs' hD' hcomp hsolve
      obtain ⟨_, a2, a3⟩ := nextVars_roots h1
      refine ⟨t, d, bs, ⟨c0, hc1, hc2, hd⟩, htree, ?_, rfl, hw2, by rw [hyn, a2], _, hcur, roots, rfl, ?_, hb, hans⟩
      · rintro d' ⟨c', hc1', hc2', hd'⟩
        obtain ⟨t', ht', htr'⟩ := C30_complete E rules ok _ hl fuel depth trees e' hr c' hc1' hc2' d' hd'
        refine ⟨t', htr', ?_⟩
        rcases List.mem_cons.1 (hperm.mem_iff.2 ht') with e | hm
        · exact .inl e
        · exact .inr ((List.pairwise_cons.1 hord).1 t' hm)
      · apply List.ext_getElem?
        intro j
        by_cases hj : j < roots.length
        · rw [List.getElem?_eq_getElem hj, a3 j _ (List.getElem?_eq_getElem hj)]
          simp [← a2, hj]
        · rw [List.getElem?_eq_none (by omega), List.getElem?_eq_none (by simp; omega)]

end

/-! ### An example: the grammar of `tests/unit/Quantifier_test.py:69-112` -/

namespace Ex

def kinTables : Dict (List (List Value)) :=
  [("have", [[.str "mary", .str "lucy"], [.str "mary", .str "bonny"], [.str "bob", .str "john"], [.str "bob", .str "chuck"]])]

/-- `parent(X) :- have(X, Y).  child(Y) :- have(X, Y).` -/
def kinRules : List HornRule :=
  [⟨"parent", [.var "X"], [("have", [.var "X", .var "Y"])]⟩, ⟨"child", [.var "Y"], [("have", [.var "X", .var "Y"])]⟩]

def kinAr : String → Option Nat := fun p => if p = "have" then some 2 else if p = "parent" then some 1 else if p = "child" then some 1 else none

theorem kin_ok : ProgramOk InfState kinAr [kinTables] kinRules := by
  refine ⟨⟨by decide, by decide, ?_⟩, ?_, ?_, ?_⟩
  · intro p f h
    have hne : p ≠ "have" ∧ p ≠ "parent" ∧ p ≠ "child" := by
      refine ⟨?_, ?_, ?_⟩ <;> rintro rfl <;> simp [coreTable, Dict.get] at h
    simp [kinAr, hne.1, hne.2.1, hne.2.2]
  · intro p k h
    simp only [kinAr] at h
    split at h
    · rename_i e; subst e; exact .inl ⟨kinTables, by simp, by decide⟩
    · split at h
      · rename_i e; subst e; exact .inr ⟨_, List.mem_cons_self, rfl⟩
      · split at h
        · rename_i e; subst e; exact .inr ⟨_, List.mem_cons_of_mem _ List.mem_cons_self, rfl⟩
        · simp at h
  · intro p k h db hdb rows hrows row hrow
    simp only [List.mem_singleton] at hdb
    subst hdb
    have hp : p = "have" := by
      by_cases e : "have" = p
      · exact e.symm
      · simp [kinTables, Dict.get, e] at hrows
    subst hp
    have hk : k = 2 := by simpa [kinAr] using h.symm
    subst hk
    have : rows = [[.str "mary", .str "lucy"], [.str "mary", .str "bonny"], [.str "bob", .str "john"], [.str "bob", .str "chuck"]] := by
      simpa [kinTables, Dict.get] using hrows.symm
    subst this
    simp only [List.mem_cons, List.not_mem_nil, or_false] at hrow
    rcases hrow with rfl | rfl | rfl | rfl <;> simp [Plain, legal, Value.isVar]
  · intro r hr
    simp only [kinRules, List.mem_cons, List.not_mem_nil, or_false] at hr
    rcases hr with rfl | rfl <;> exact ⟨rfl, by simp [ArgsOk, Value.isVar], by simp [QueryOk, ArgsOk, Value.isVar, kinAr]⟩

theorem kin_heads : HeadsBound kinRules := by
  intro r hr x hx
  simp only [kinRules, List.mem_cons, List.not_mem_nil, or_false] at hr
  rcases hr with rfl | rfl <;> simp [queryVars] at hx ⊢ <;> grind

def kinKB : KnowledgeBase InfState kinAr [kinTables] kinRules :=
  tableKB (s := { relations := [("learn_rule", .learnRule), ("parent", .handleRule), ("child", .handleRule)]
                  rules := [("parent", [HornRule.toRule ⟨"parent", [.var "X"], [("have", [.var "X", .var "Y"])]⟩]),
                    ("child", [HornRule.toRule ⟨"child", [.var "Y"], [("have", [.var "X", .var "Y"])]⟩])] }) kin_ok (by decide +kernel)

theorem kin_core : ∀ p ∈ coreNames, NotDefined kinKB.others kinKB.world p := by
  intro p hp m hm
  have : ∀ p ∈ coreNames, (tableModule InfState kinTables).relations kinKB.world p = none ∧
      (inferenceModule kinKB.lens).relations kinKB.world p = none := by
    intro p hp
    simp only [coreNames, List.mem_cons, List.not_mem_nil, or_false] at hp
    rcases hp with rfl | rfl | rfl | rfl | rfl | rfl | rfl | rfl | rfl | rfl | rfl | rfl | rfl <;> exact ⟨rfl, rfl⟩
  simp only [KnowledgeBase.others, kinKB, tableKB, List.mem_append, List.mem_cons, List.mem_map, List.not_mem_nil, or_false] at hm
  rcases hm with ⟨db, rfl, rfl⟩ | rfl | ⟨_, hf, _⟩
  · exact (this p hp).1
  · exact (this p hp).2
  · exact hf.elim

def cE1 : Str := ['E', '1']
def cE2 : Str := ['E', '2']
/-- A category with arguments. -/
def rel (p : Str) (args : List Str) : Constituent := ⟨p, args, .relation, false, false⟩
def cNp : Str := ['n', 'p']
def cVp : Str := ['v', 'p']
def cTv : Str := ['t', 'v']
def cNbar : Str := ['n', 'b', 'a', 'r']
def cNoun : Str := ['n', 'o', 'u', 'n']
def cDet : Str := ['d', 'e', 't']
def cQdet : Str := ['q', 'd', 'e', 't']
def cQnp : Str := ['q', 'n', 'p']
def cNumber : Str := ['n', 'u', 'm', 'b', 'e', 'r']
/-- The slots of `richard/core/constants.py`. -/
def sRange : String := "__$Range$__"
def sBody : String := "__$Body$__"

/-- A rule of the example. -/
def kinRule (ante : Constituent) (cons : List Constituent) (sem : List Value → Except Err Value) : GRule Attachment :=
  GRule.new whoOracles.ruleHash ante cons (.user { sem := some sem })

/-- The functions `sem` of the grammar. -/
def applyOne : List Value → Except Err Value
  | [np, .list vp] => (applyTemplate np [vp]).map .list
  | _ => .error .typeError
def applyOther : List Value → Except Err Value
  | [.list tv, np] => (applyTemplate np [tv]).map .list
  | _ => .error .typeError
def makeNp : List Value → Except Err Value
  | [det, .list nbar] => (applyTemplate det [nbar, [.str sBody]]).map (.tmpl [slot sBody])
  | _ => .error .typeError
def makeNumeral : List Value → Except Err Value
  | [n] => .ok (.tmpl [slot sRange, slot sBody] [.tuple [.str "det_equals", .list [.str sRange, .str sBody], n]])
  | _ => .error .typeError
def same : List Value → Except Err Value
  | [.list noun] => .ok (.list noun)
  | _ => .error .typeError
def constant (v : Value) : List Value → Except Err Value
  | [] => .ok v
  | _ => .error .typeError
def everyValue : Value := .tmpl [slot sRange, slot sBody] [.tuple [.str "all", .var "E1", .list [.str sRange], .list [.str sBody]]]

def ruleS := kinRule (rel cRoot [['V', '1']]) [rel cNp [cE1], exSep, rel cVp [cE1]] applyOne
def ruleVp := kinRule (rel cVp [cE1]) [rel cTv [cE1, cE2], exSep, rel cQnp [cE2]] applyOther
def ruleTv := kinRule (rel cTv [cE1, cE2]) [exW ['h', 'a', 's']] (constant (.list [.tuple [.str "have", .var "E1", .var "E2"]]))
def ruleNp := kinRule (rel cNp [cE1]) [rel cDet [cE1], exSep, rel cNbar [cE1]] makeNp
def ruleQnp := kinRule (rel cQnp [cE1]) [rel cQdet [cE1], exSep, rel cNbar [cE1]] makeNp
def ruleNbar := kinRule (rel cNbar [cE1]) [rel cNoun [cE1]] same
def ruleEvery := kinRule (rel cDet [cE1]) [exW ['e', 'v', 'e', 'r', 'y']] (constant everyValue)
def ruleNumeral := kinRule (rel cQdet [cE1]) [rel cNumber [cE1]] makeNumeral
def ruleTwo := kinRule (rel cNumber [['D', '1']]) [exW ['t', 'w', 'o']] (constant (.num 2))
def ruleThree := kinRule (rel cNumber [['D', '1']]) [exW ['t', 'h', 'r', 'e', 'e']] (constant (.num 3))
def ruleParent := kinRule (rel cNoun [cE1]) [exW ['p', 'a', 'r', 'e', 'n', 't']] (constant (.list [.tuple [.str "parent", .var "E1"]]))
def ruleChildren := kinRule (rel cNoun [cE1]) [exW ['c', 'h', 'i', 'l', 'd', 'r', 'e', 'n']] (constant (.list [.tuple [.str "child", .var "E1"]]))

def kinGrammar : List (GRule Attachment) :=
  [ruleS, ruleVp, ruleTv, ruleNp, ruleQnp, ruleNbar, ruleEvery, ruleNumeral, ruleTwo, ruleThree, ruleParent, ruleChildren]

/-- The signatures. A noun phrase quantifies over its argument, which must not be known; the filling of its slot knows it. -/
def kinKinds (p : Str) (_ : Nat) : Kind :=
  if p = cNumber then .value fun v => ∃ r : Rat, v = .num r
  else if p = cDet then .phrase ⟨[.new], [false], [⟨[false], [true], true, true⟩, ⟨[true], [false], true, false⟩], false⟩
  else if p = cQdet then .phrase ⟨[.new], [false], [⟨[false], [true], true, true⟩, ⟨[true], [false], true, true⟩], true⟩
  else if p = cNp then .phrase ⟨[.new], [false], [⟨[true], [false], true, false⟩], false⟩
  else if p = cQnp then .phrase ⟨[.new], [false], [⟨[true], [false], true, true⟩], true⟩
  else if p = cVp then .phrase ⟨[.known], [false], [], false⟩
  else if p = cTv then .phrase ⟨[.any, .any], [true, true], [], true⟩
  else if p = cRoot then .phrase ⟨[.any], [false], [], false⟩
  else .phrase ⟨[.any], [true], [], true⟩

/-- The parts. -/
def kinSpec (r : GRule Attachment) (ws : List Value) : RuleParts :=
  if r.cons = ruleS.cons then .parts [] [.app 0 [[.app 2 []]]]
  else if r.cons = ruleVp.cons then .parts [] [.app 2 [[.app 0 []]]]
  else if r.cons = ruleTv.cons then .parts [] [.basic (.atom "have" [.var "E1", .var "E2"])]
  else if r.cons = ruleNp.cons then .parts [sBody] [.app 0 [[.app 2 []], [.hole 0]]]
  else if r.cons = ruleQnp.cons then .parts [sBody] [.app 0 [[.app 2 []], [.hole 0]]]
  else if r.cons = ruleNbar.cons then .parts [] [.app 0 []]
  else if r.cons = ruleEvery.cons then .parts [sRange, sBody] [.all "E1" [.hole 0] [.hole 1]]
  else if r.cons = ruleNumeral.cons then .parts [sRange, sBody] [.number .exactly "E1" [.hole 0, .hole 1] (ws.getD 0 .none)]
  else if r.cons = ruleTwo.cons then .value (.num 2)
  else if r.cons = ruleThree.cons then .value (.num 3)
  else if r.cons = ruleParent.cons then .parts [] [.basic (.atom "parent" [.var "E1"])]
  else .parts [] [.basic (.atom "child" [.var "E1"])]

/-- The names of slots. -/
def kinSlots : List String := [sRange, sBody]

/-- The consequents that are used are phrases. -/
def kidsCheck (r : GRule Attachment) (e : List Part) : Bool := (kidsAll e).all fun i => match r.cons[i]? with
  | some k => decide (k.pos = .relation) && (match kinKinds k.predicate k.args.length with
    | .phrase _ => true
    | .value _ => false)
  | none => false

theorem kidsCheck_ok {r : GRule Attachment} {e : List Part} (h : kidsCheck r e = true) :
    ∀ i ∈ kidsAll e, ∃ k s, r.cons[i]? = some k ∧ k.pos = .relation ∧ kinKinds k.predicate k.args.length = .phrase s := by
  intro i hi
  have h := List.all_eq_true.1 h i hi
  cases hk : r.cons[i]? with
  | none => simp [hk] at h
  | some k =>
    simp only [hk, Bool.and_eq_true, decide_eq_true_eq] at h
    cases hs : kinKinds k.predicate k.args.length with
    | value _ => simp [hs] at h
    | phrase s => exact ⟨k, s, rfl, h.1, hs⟩

/-- What is to be checked for a rule that makes parts which do not depend on values. -/
theorem kin_parts {spec : GRule Attachment → List Value → RuleParts} {r : GRule Attachment} {ns : List String} {e : List Part} {f : List Value → Except Err Value} (hr : r.sem = .user { sem := some f })
    (hs : ∀ ws, spec r ws = .parts ns e) (h1 : ∀ x ∈ formalNames r, isGenName x = false) (h2 : (argNames r.ante).Nodup)
    (hok : RulePartsOk kinAr kinSlots kinKinds (sigOf kinKinds r.ante) r ns e) (hk : ∃ s, kinKinds r.ante.predicate r.ante.args.length = .phrase s)
    (hf : ∀ ws vs us s, vs.length = r.cons.length → evalAll ns (fun i => vs.getD i .none) e = .ok us →
      f (ruleArgs kinKinds r.cons ws vs) = .ok s → s = wrapUp ns us) : SpecRule kinAr kinSlots kinKinds spec r where
  names := h1
  nodup := h2
  value := fun ws v _ h => by rw [hs] at h; cases h
  parts := fun ws ns' e' _ h => by
    rw [hs] at h
    cases h
    refine ⟨hok, hk, fun f' hf' vs us s hl he hfs => hf ws vs us s hl he ?_⟩
    rw [hr] at hf'
    cases hf'
    exact hfs
  noExec := by rw [hr]; rfl
  noDialog := fun _ => by rw [hr]; rfl

/-- What is to be checked for a rule that makes a number. -/
theorem kin_value {r : GRule Attachment} {k : Rat} (hr : r.sem = .user { sem := some (constant (.num k)) })
    (hs : ∀ ws, kinSpec r ws = .value (.num k)) (h1 : ∀ x ∈ formalNames r, isGenName x = false) (h2 : (argNames r.ante).Nodup)
    (hk : r.ante.predicate = cNumber) : SpecRule kinAr kinSlots kinKinds kinSpec r where
  names := h1
  nodup := h2
  value := fun ws v _ h => by
    rw [hs] at h
    cases h
    refine ⟨rfl, ⟨fun v => ∃ r : Rat, v = .num r, by rw [hk]; rfl, k, rfl⟩, fun f hf vs s _ hfs => ?_⟩
    rw [hr] at hf
    cases hf
    simp only [constant] at hfs
    split at hfs
    · cases hfs; rfl
    · cases hfs
  parts := fun ws ns' e' _ h => by rw [hs] at h; cases h
  noExec := by rw [hr]; rfl
  noDialog := fun _ => by rw [hr]; rfl

theorem except_map_ok {α β : Type} {x : Except Err α} {g : α → β} {b : β} (h : x.map g = .ok b) : ∃ a, x = .ok a ∧ b = g a := by
  cases x with
  | error e => cases h
  | ok a => cases h; exact ⟨a, rfl, rfl⟩

theorem spec_s : SpecRule kinAr kinSlots kinKinds kinSpec ruleS := by
  refine kin_parts rfl (fun _ => rfl) (by decide +kernel) (by decide +kernel) ⟨by decide +kernel, rfl, by decide +kernel, by decide +kernel,
    by decide +kernel, by decide +kernel, kidsCheck_ok (by decide +kernel), by decide +kernel, by decide +kernel⟩ ⟨_, rfl⟩ ?_
  intro ws vs us s hl he hf
  match vs, hl with
  | [v0, v1, v2], _ =>
    change applyOne [v0, v2] = _ at hf
    cases v2 <;> try (cases hf; done)
    rename_i vp
    obtain ⟨a, ha, rfl⟩ := except_map_ok hf
    simp only [evalAll, evalPart, evalMany, List.getD, List.getElem?_cons_zero, List.getElem?_cons_succ, Option.getD_some, atomsOf, List.isEmpty_nil,
      List.isEmpty_cons, if_true, Bool.false_eq_true, if_false, List.append_nil, ha, Except.ok.injEq] at he
    rw [← he]; rfl

theorem spec_vp : SpecRule kinAr kinSlots kinKinds kinSpec ruleVp := by
  refine kin_parts rfl (fun _ => rfl) (by decide +kernel) (by decide +kernel) ⟨by decide +kernel, rfl, by decide +kernel, by decide +kernel,
    by decide +kernel, by decide +kernel, kidsCheck_ok (by decide +kernel), by decide +kernel, by decide +kernel⟩ ⟨_, rfl⟩ ?_
  intro ws vs us s hl he hf
  match vs, hl with
  | [v0, v1, v2], _ =>
    change applyOther [v0, v2] = _ at hf
    cases v0 <;> try (cases hf; done)
    rename_i vp
    obtain ⟨a, ha, rfl⟩ := except_map_ok hf
    simp only [evalAll, evalPart, evalMany, List.getD, List.getElem?_cons_zero, List.getElem?_cons_succ, Option.getD_some, atomsOf, List.isEmpty_nil,
      List.isEmpty_cons, if_true, Bool.false_eq_true, if_false, List.append_nil, ha, Except.ok.injEq] at he
    rw [← he]; rfl

/-- The rules that only have a constant. -/
theorem spec_constant {spec : GRule Attachment → List Value → RuleParts} {r : GRule Attachment} {ns : List String} {e : List Part} {v : Value} {us0 : List Value} (hr : r.sem = .user { sem := some (constant v) })
    (hs : ∀ ws, spec r ws = .parts ns e) (h1 : ∀ x ∈ formalNames r, isGenName x = false) (h2 : (argNames r.ante).Nodup)
    (hok : RulePartsOk kinAr kinSlots kinKinds (sigOf kinKinds r.ante) r ns e) (hk : ∃ s, kinKinds r.ante.predicate r.ante.args.length = .phrase s)
    (he : ∀ C, evalAll ns C e = .ok us0) (hv : v = wrapUp ns us0) : SpecRule kinAr kinSlots kinKinds spec r := by
  refine kin_parts hr hs h1 h2 hok hk ?_
  intro ws vs us s _ h hf
  rw [he] at h
  cases h
  simp only [constant] at hf
  split at hf
  · cases hf; exact hv
  · cases hf

theorem spec_tv : SpecRule kinAr kinSlots kinKinds kinSpec ruleTv :=
  spec_constant rfl (fun _ => rfl) (by decide +kernel) (by decide +kernel) ⟨by decide +kernel, rfl, by decide +kernel, by decide +kernel,
    by decide +kernel, by decide +kernel, kidsCheck_ok (by decide +kernel), by decide +kernel, by decide +kernel⟩ ⟨_, rfl⟩ (fun _ => rfl) rfl

theorem spec_parent : SpecRule kinAr kinSlots kinKinds kinSpec ruleParent :=
  spec_constant rfl (fun _ => rfl) (by decide +kernel) (by decide +kernel) ⟨by decide +kernel, rfl, by decide +kernel, by decide +kernel,
    by decide +kernel, by decide +kernel, kidsCheck_ok (by decide +kernel), by decide +kernel, by decide +kernel⟩ ⟨_, rfl⟩ (fun _ => rfl) rfl

theorem spec_children : SpecRule kinAr kinSlots kinKinds kinSpec ruleChildren :=
  spec_constant rfl (fun _ => rfl) (by decide +kernel) (by decide +kernel) ⟨by decide +kernel, rfl, by decide +kernel, by decide +kernel,
    by decide +kernel, by decide +kernel, kidsCheck_ok (by decide +kernel), by decide +kernel, by decide +kernel⟩ ⟨_, rfl⟩ (fun _ => rfl) rfl

theorem spec_every : SpecRule kinAr kinSlots kinKinds kinSpec ruleEvery :=
  spec_constant rfl (fun _ => rfl) (by decide +kernel) (by decide +kernel) ⟨by decide +kernel, rfl, by decide +kernel, by decide +kernel,
    by decide +kernel, by decide +kernel, kidsCheck_ok (by decide +kernel), by decide +kernel, by decide +kernel⟩ ⟨_, rfl⟩ (fun _ => rfl) rfl

theorem makeNp_ok {v0 v1 v2 s : Value} {us : List Value} (he : evalAll [sBody] (fun i => [v0, v1, v2].getD i .none) [.app 0 [[.app 2 []], [.hole 0]]] = .ok us)
    (hf : makeNp [v0, v2] = .ok s) : s = wrapUp [sBody] us := by
  cases v2 <;> try (cases hf; done)
  obtain ⟨a, ha, rfl⟩ := except_map_ok hf
  simp only [evalAll, evalPart, evalMany, List.getD, List.getElem?_cons_zero, List.getElem?_cons_succ, Option.getD_some, atomsOf, List.isEmpty_nil,
    List.isEmpty_cons, if_true, Bool.false_eq_true, if_false, List.append_nil, ha, Except.ok.injEq] at he
  rw [← he]; rfl

theorem spec_np : SpecRule kinAr kinSlots kinKinds kinSpec ruleNp := by
  refine kin_parts rfl (fun _ => rfl) (by decide +kernel) (by decide +kernel) ⟨by decide +kernel, rfl, by decide +kernel, by decide +kernel,
    by decide +kernel, by decide +kernel, kidsCheck_ok (by decide +kernel), by decide +kernel, by decide +kernel⟩ ⟨_, rfl⟩ ?_
  intro ws vs us s hl he hf
  match vs, hl with
  | [v0, v1, v2], _ => exact makeNp_ok he hf

theorem spec_qnp : SpecRule kinAr kinSlots kinKinds kinSpec ruleQnp := by
  refine kin_parts rfl (fun _ => rfl) (by decide +kernel) (by decide +kernel) ⟨by decide +kernel, rfl, by decide +kernel, by decide +kernel,
    by decide +kernel, by decide +kernel, kidsCheck_ok (by decide +kernel), by decide +kernel, by decide +kernel⟩ ⟨_, rfl⟩ ?_
  intro ws vs us s hl he hf
  match vs, hl with
  | [v0, v1, v2], _ => exact makeNp_ok he hf

theorem spec_nbar : SpecRule kinAr kinSlots kinKinds kinSpec ruleNbar := by
  refine kin_parts rfl (fun _ => rfl) (by decide +kernel) (by decide +kernel) ⟨by decide +kernel, rfl, by decide +kernel, by decide +kernel,
    by decide +kernel, by decide +kernel, kidsCheck_ok (by decide +kernel), by decide +kernel, by decide +kernel⟩ ⟨_, rfl⟩ ?_
  intro ws vs us s hl he hf
  match vs, hl with
  | [v0], _ =>
    change same [v0] = _ at hf
    cases v0 <;> try (cases hf; done)
    cases hf
    simp only [evalAll, evalPart, evalMany, List.getD, List.getElem?_cons_zero, Option.getD_some, atomsOf, List.isEmpty_nil, if_true,
      List.append_nil, Except.ok.injEq] at he
    rw [← he]; rfl

theorem spec_numeral : SpecRule kinAr kinSlots kinKinds kinSpec ruleNumeral := by
  refine ⟨by decide +kernel, by decide +kernel, fun ws v _ h => (by cases h), fun ws ns e hws h => ?_, rfl, fun _ => rfl⟩
  have hws : ∃ v us, ws = v :: us ∧ (∃ r : Rat, v = .num r) ∧ us = [] := hws
  obtain ⟨_, _, rfl, ⟨k, rfl⟩, rfl⟩ := hws
  cases h
  refine ⟨⟨rfl, rfl, by decide +kernel, by decide +kernel, fun j hj => ?_, fun t ht => ?_, fun i hi => ?_, fun y hy => ?_, fun y hy => ?_⟩, ⟨_, rfl⟩, ?_⟩
  · have : ∀ j ∈ [0, 1], j < [sRange, sBody].length := by decide +kernel
    exact this j hj
  · have : ∀ t ∈ ["det_equals"], t ∉ kinSlots := by decide +kernel
    exact this t ht
  · have : i ∈ ([] : List Nat) := hi
    simp at this
  · have : ∀ y ∈ ["E1", "E1", "E1"], y ∈ formalNames ruleNumeral := by decide +kernel
    exact .inl (this y hy)
  · have : ∀ y ∈ ["E1", "E1", "E1"], isGenName y = false := by decide +kernel
    exact this y hy
  · intro f hf vs us s hl he hfs
    cases hf
    match vs, hl with
    | [v0], _ =>
      cases hfs
      cases he
      rfl

theorem kin_usable {r : GRule Attachment} (h : Usable kinGrammar r) : r ∈ kinGrammar := by
  obtain ⟨r0, h0, hv⟩ := h
  have key : ruleVariants r0 = [r0] := by
    apply C36_no_optional
    simp only [kinGrammar, List.mem_cons, List.not_mem_nil, or_false] at h0
    rcases h0 with rfl | rfl | rfl | rfl | rfl | rfl | rfl | rfl | rfl | rfl | rfl | rfl <;> decide
  rw [key, List.mem_singleton] at hv
  subst hv
  exact h0

theorem kin_spec (r : GRule Attachment) (h : Usable kinGrammar r) : SpecRule kinAr kinSlots kinKinds kinSpec r := by
  have h := kin_usable h
  simp only [kinGrammar, List.mem_cons, List.not_mem_nil, or_false] at h
  rcases h with rfl | rfl | rfl | rfl | rfl | rfl | rfl | rfl | rfl | rfl | rfl | rfl
  · exact spec_s
  · exact spec_vp
  · exact spec_tv
  · exact spec_np
  · exact spec_qnp
  · exact spec_nbar
  · exact spec_every
  · exact spec_numeral
  · exact kin_value rfl (fun _ => rfl) (by decide +kernel) (by decide +kernel) rfl
  · exact kin_value rfl (fun _ => rfl) (by decide +kernel) (by decide +kernel) rfl
  · exact spec_parent
  · exact spec_children

theorem kin_rulesOk : RulesOk kinGrammar := by
  constructor <;> decide +kernel

theorem kin_root (r : GRule Attachment) (_ : Usable kinGrammar r) (_ : r.ante.predicate = cRoot) :
    ∃ s, kinKinds cRoot r.ante.args.length = .phrase s ∧ RootSig s := ⟨_, rfl, rfl, by decide⟩

def kinText : Str := ['e', 'v', 'e', 'r', 'y', ' ', 'p', 'a', 'r', 'e', 'n', 't', ' ', 'h', 'a', 's', ' ', 't', 'w', 'o', ' ', 'c', 'h', 'i', 'l', 'd', 'r', 'e', 'n']

theorem kin_runs : answersOf (enter (solverAt kinKB.modules 12).inSession
      (sentencePipeline whoOracles 200 20 none (solverAt kinKB.modules 12)) (Request.new kinText, ⟨Grammar.new kinGrammar, ⟨0, []⟩, kinKB.world⟩)) =
    some [[("$2", .str "mary")], [("$2", .str "bob")]] := by decide +kernel

/-- **C77** applies: the sentence is true, as there are answers. -/
theorem kin_true : ∃ t d, WholeDerivation whoOracles kinGrammar (normalizeSpace kinText) d ∧ TreesOf Eq [d] [t] ∧
    ∃ vals, SentenceTrue (program [kinTables] kinRules) kinSpec t vals := by
  obtain ⟨st, h⟩ := answersOf_some kin_runs
  obtain ⟨_, h⟩ := C77_text_to_answers kinKB kin_heads kin_core whoOracles kinGrammar kin_rulesOk kin_spec kin_root kinText (by intro i; simp [whoOracles])
    200 20 12 (fuel' := 20) (depth' := 20) [] rfl rfl h
  rcases h with ⟨h, _⟩ | ⟨t, d, bs, h1, h2, _, h4, _, h5, _⟩
  · cases h
  · cases h4
    obtain ⟨vals, _, _, hv⟩ := h5.1 (by simp)
    exact ⟨t, d, h1, h2, vals, hv⟩

/-- A leaf. -/
def leafTree (w : Str) : ParseTree Attachment := .node w [] w (GRule.new whoOracles.ruleHash (exW w) [] .none)
/-- A tree for a word. -/
def wordTree (p w : Str) (r : GRule Attachment) : ParseTree Attachment := .node p [leafTree w] [] r
def parentTree : ParseTree Attachment := .node cNbar [wordTree cNoun ['p', 'a', 'r', 'e', 'n', 't'] ruleParent] [] ruleNbar
def childrenTree : ParseTree Attachment := .node cNbar [wordTree cNoun ['c', 'h', 'i', 'l', 'd', 'r', 'e', 'n'] ruleChildren] [] ruleNbar
def everyTree : ParseTree Attachment := .node cNp [wordTree cDet ['e', 'v', 'e', 'r', 'y'] ruleEvery, leafTree [' '], parentTree] [] ruleNp
def twoTree : ParseTree Attachment := .node cQnp [.node cQdet [wordTree cNumber ['t', 'w', 'o'] ruleTwo] [] ruleNumeral, leafTree [' '], childrenTree] [] ruleQnp
def haveTree : ParseTree Attachment := .node cVp [wordTree cTv ['h', 'a', 's'] ruleTv, leafTree [' '], twoTree] [] ruleVp
/-- The tree of `every parent has two children`. -/
def kinTree : ParseTree Attachment := .node cRoot [everyTree, leafTree [' '], haveTree] [] ruleS

section
variable (P : Program)

/-- What a phrase means. -/
def den (t : ParseTree Attachment) : (Nat → List Value → Prop) → List Value → Prop := match nodeMeaning P kinSpec t with
  | .phrase D => D
  | .value _ => fun _ _ => False

/-- Values for some variables. -/
theorem one_var {p : Assignment → Prop} {x : Value} (hx : Plain x) (q : Prop) (h : ∀ τ : Assignment, τ "E1" = x → (p τ ↔ q)) :
    (∃ τ : Assignment, (∀ y, Plain (τ y)) ∧ ["E1"].map τ = [x] ∧ p τ) ↔ q := by
  constructor
  · rintro ⟨τ, _, h1, h2⟩
    simp only [List.map_cons, List.map_nil, List.cons.injEq, and_true] at h1
    exact (h τ h1).1 h2
  · exact fun hq => ⟨fun _ => x, fun _ => hx, rfl, (h _ rfl).2 hq⟩

theorem setAll_one (τ : Assignment) (x : String) (v : Value) : setAll τ [x] [v] x = v := by simp [setAll]
theorem setVal_one (τ : Assignment) (x : String) (v : Value) : setVal τ x v x = v := by simp [setVal]

theorem den_parent (S) {x : Value} (hx : Plain x) : den P parentTree S [x] ↔ Derivable P "parent" [x] := by
  have h1 : ∀ S, den P (wordTree cNoun ['p', 'a', 'r', 'e', 'n', 't'] ruleParent) S [x] ↔ Derivable P "parent" [x] := fun S =>
    one_var hx _ fun τ hτ => by subst hτ; exact ⟨fun h => h.1, fun h => ⟨h, trivial⟩⟩
  exact one_var hx _ fun τ hτ => by subst hτ; exact ⟨fun h => (h1 _).1 h.1, fun h => ⟨(h1 _).2 h, trivial⟩⟩

theorem den_children (S) {x : Value} (hx : Plain x) : den P childrenTree S [x] ↔ Derivable P "child" [x] := by
  have h1 : ∀ S, den P (wordTree cNoun ['c', 'h', 'i', 'l', 'd', 'r', 'e', 'n'] ruleChildren) S [x] ↔ Derivable P "child" [x] := fun S =>
    one_var hx _ fun τ hτ => by subst hτ; exact ⟨fun h => h.1, fun h => ⟨h, trivial⟩⟩
  exact one_var hx _ fun τ hτ => by subst hτ; exact ⟨fun h => (h1 _).1 h.1, fun h => ⟨(h1 _).2 h, trivial⟩⟩

theorem den_every (S) {x : Value} (hx : Plain x) : den P (wordTree cDet ['e', 'v', 'e', 'r', 'y'] ruleEvery) S [x] ↔ S 0 [x] ∧ ∀ v, Plain v → S 0 [v] → S 1 [v] := by
  refine one_var hx _ fun τ hτ => ?_
  subst hτ
  constructor
  · rintro ⟨⟨h1, h2⟩, _⟩
    refine ⟨h1.1, fun v hv h => ?_⟩
    have := (h2 v hv ⟨(by show S 0 [setVal τ "E1" v "E1"]; rw [setVal_one]; exact h), trivial⟩).1
    change S 1 [setVal τ "E1" v "E1"] at this
    rwa [setVal_one] at this
  · rintro ⟨h1, h2⟩
    refine ⟨⟨⟨h1, trivial⟩, fun v hv h => ⟨?_, trivial⟩⟩, trivial⟩
    have h := h.1
    change S 0 [setVal τ "E1" v "E1"] at h
    show S 1 [setVal τ "E1" v "E1"]
    rw [setVal_one] at h ⊢
    exact h2 v hv h

theorem den_np (S) {x : Value} (hx : Plain x) : den P everyTree S [x] ↔ Derivable P "parent" [x] ∧ ∀ v, Plain v → Derivable P "parent" [v] → S 0 [v] := by
  refine one_var hx _ fun τ hτ => ?_
  subst hτ
  have h0 : ∀ v, Plain v → (den P parentTree (fun _ _ => True) [setAll τ ["E1"] [v] "E1"] ↔ Derivable P "parent" [v]) := fun v hv => by
    rw [setAll_one]; exact den_parent P _ hv
  constructor
  · rintro ⟨h, _⟩
    obtain ⟨h1, h2⟩ := (den_every P _ hx).1 h
    refine ⟨(h0 _ hx).1 h1.1, fun v hv h => ?_⟩
    have := (h2 v hv ⟨(h0 v hv).2 h, trivial⟩).1
    change S 0 [setAll τ ["E1"] [v] "E1"] at this
    rwa [setAll_one] at this
  · rintro ⟨h1, h2⟩
    refine ⟨(den_every P _ hx).2 ⟨⟨(h0 _ hx).2 h1, trivial⟩, fun v hv h => ⟨?_, trivial⟩⟩, trivial⟩
    show S 0 [setAll τ ["E1"] [v] "E1"]
    rw [setAll_one]
    exact h2 v hv ((h0 v hv).1 h.1)

/-- How many there are. -/
def Exactly (k : Rat) (S : Value → Prop) : Prop := ∃ c : Nat, CountOf S c ∧ k = c

theorem exactly_congr {k : Rat} {S S' : Value → Prop} (h : ∀ v, S v ↔ S' v) : Exactly k S ↔ Exactly k S' := by
  have : S = S' := funext fun v => propext (h v)
  rw [this]

theorem den_two (S) {x : Value} (hx : Plain x) : den P (.node cQdet [wordTree cNumber ['t', 'w', 'o'] ruleTwo] [] ruleNumeral) S [x] ↔
    Exactly 2 fun v => Plain v ∧ S 0 [v] ∧ S 1 [v] := by
  refine one_var hx _ fun τ hτ => ?_
  subst hτ
  have hS : (fun v => Plain v ∧ S 0 [setVal τ "E1" v "E1"] ∧ S 1 [setVal τ "E1" v "E1"] ∧ True) = fun v => Plain v ∧ S 0 [v] ∧ S 1 [v] := by
    funext v
    rw [setVal_one, and_true]
  constructor
  · rintro ⟨⟨c, h1, h2⟩, _⟩
    change CountOf (fun v => Plain v ∧ S 0 [setVal τ "E1" v "E1"] ∧ S 1 [setVal τ "E1" v "E1"] ∧ True) c at h1
    change Value.num 2 = .num c at h2
    rw [hS] at h1
    exact ⟨c, h1, Value.num.inj h2⟩
  · rintro ⟨c, h1, h2⟩
    rw [← hS] at h1
    exact ⟨⟨c, h1, congrArg Value.num h2⟩, trivial⟩

theorem den_qnp (S) {x : Value} (hx : Plain x) : den P twoTree S [x] ↔ Exactly 2 fun v => Plain v ∧ Derivable P "child" [v] ∧ S 0 [v] := by
  refine one_var hx _ fun τ hτ => ?_
  subst hτ
  have key : (Exactly 2 fun v => Plain v ∧ (den P childrenTree (fun _ _ => True) [setAll τ ["E1"] [v] "E1"] ∧ True) ∧ (S 0 [setAll τ ["E1"] [v] "E1"] ∧ True)) ↔
      Exactly 2 fun v => Plain v ∧ Derivable P "child" [v] ∧ S 0 [v] := exactly_congr fun v => by
    rw [setAll_one, and_true, and_true]
    exact and_congr_right fun hv => and_congr_left fun _ => den_children P _ hv
  constructor
  · rintro ⟨h, _⟩
    exact key.1 ((den_two P _ hx).1 h)
  · intro h
    exact ⟨(den_two P _ hx).2 (key.2 h), trivial⟩

theorem den_have (S) {x y : Value} (hx : Plain x) (hy : Plain y) : den P (wordTree cTv ['h', 'a', 's'] ruleTv) S [x, y] ↔ Derivable P "have" [x, y] := by
  constructor
  · rintro ⟨τ, _, h1, h2, _⟩
    change [τ "E1", τ "E2"] = _ at h1
    rw [← h1]
    exact h2
  · intro h
    refine ⟨fun z => if z = "E1" then x else y, fun z => ?_, rfl, h, trivial⟩
    by_cases hz : z = "E1"
    · simp [hz, hx]
    · simp [hz, hy]

theorem den_vp (S) {x : Value} (hx : Plain x) : den P haveTree S [x] ↔ Exactly 2 fun y => Plain y ∧ Derivable P "child" [y] ∧ Derivable P "have" [x, y] := by
  have key : ∀ τ : Assignment, τ "E1" = x → ((Exactly 2 fun v => Plain v ∧ Derivable P "child" [v] ∧
      (den P (wordTree cTv ['h', 'a', 's'] ruleTv) (fun _ _ => True) [setAll τ ["E2"] [v] "E1", setAll τ ["E2"] [v] "E2"] ∧ True)) ↔
      Exactly 2 fun y => Plain y ∧ Derivable P "child" [y] ∧ Derivable P "have" [x, y]) := fun τ hτ => exactly_congr fun v => by
    have : setAll τ ["E2"] [v] "E1" = x := by simp [setAll, hτ]
    rw [setAll_one, this, and_true]
    exact and_congr_right fun hv => and_congr_right fun _ => den_have P _ hx hv
  constructor
  · rintro ⟨τ, hp, h1, h2, _⟩
    change [τ "E1"] = _ at h1
    simp only [List.cons.injEq, and_true] at h1
    exact (key τ h1).1 ((den_qnp P _ (hp "E2")).1 h2)
  · intro h
    exact ⟨fun _ => x, fun _ => hx, rfl, (den_qnp P _ hx).2 ((key (fun _ => x) rfl).2 h), trivial⟩

/-- What `every parent has two children` means: there are parents, and each of these has exactly two children. -/
theorem kin_meaning {v : Value} (hv : Plain v) : SentenceTrue P kinSpec kinTree [v] ↔ (∃ x, Plain x ∧ Derivable P "parent" [x]) ∧
    ∀ x, Plain x → Derivable P "parent" [x] → Exactly 2 fun y => Plain y ∧ Derivable P "child" [y] ∧ Derivable P "have" [x, y] := by
  have hs : SentenceTrue P kinSpec kinTree [v] ↔ den P kinTree (fun _ _ => True) [v] := by
    constructor
    · rintro ⟨D, hD, h⟩
      cases hD
      exact h
    · exact fun h => ⟨_, rfl, h⟩
  have key : ∀ (τ : Assignment) x, Plain x → (den P haveTree (fun _ _ => True) [setAll τ ["E1"] [x] "E1"] ∧ True ↔
      Exactly 2 fun y => Plain y ∧ Derivable P "child" [y] ∧ Derivable P "have" [x, y]) := fun τ x hx => by
    rw [setAll_one, and_true]
    exact den_vp P _ hx
  rw [hs]
  constructor
  · rintro ⟨τ, hp, _, h, _⟩
    obtain ⟨h1, h2⟩ := (den_np P _ (hp "E1")).1 h
    exact ⟨⟨_, hp "E1", h1⟩, fun x hx hpx => (key τ x hx).1 (h2 x hx hpx)⟩
  · rintro ⟨⟨x, hx, hpx⟩, h⟩
    let τ : Assignment := fun y => if y = "V1" then v else x
    have hτ : ∀ y, Plain (τ y) := fun y => by
      by_cases hy : y = "V1"
      · simp [τ, hy, hv]
      · simp [τ, hy, hx]
    refine ⟨τ, hτ, rfl, (den_np P _ hx).2 ⟨hpx, fun x' hx' hpx' => ?_⟩, trivial⟩
    exact (key τ x' hx').2 (h x' hx' hpx')

end

theorem kin_sep {i j : Nat} (h1 : j = i + 1) (h2 : j ≤ kinText.length) (h3 : (kinText.drop i).take 1 = [' ']) :
    Token whoOracles kinText exSep i j [' '] := ⟨h1, h2, .inl ⟨rfl, rfl, h3⟩⟩

theorem kin_word {w : Str} {i j : Nat} (h1 : j = i + w.length) (h2 : j ≤ kinText.length) (h3 : (kinText.drop i).take w.length = w) :
    Token whoOracles kinText (exW w) i j w := ⟨h1, h2, .inl ⟨rfl, rfl, h3⟩⟩

theorem kin_use {r : GRule Attachment} (h : r ∈ kinGrammar) (hv : ruleVariants r = [r]) : Usable kinGrammar r := ⟨r, h, by rw [hv]; simp⟩

/-- The derivation of the sentence. -/
def leafD (w : Str) : DTree Attachment := .leaf (exW w) w
def sepD : DTree Attachment := .leaf exSep [' ']
def kinDerivation : DTree Attachment := .node ruleS
  [.node ruleNp [.node ruleEvery [leafD ['e', 'v', 'e', 'r', 'y']], sepD, .node ruleNbar [.node ruleParent [leafD ['p', 'a', 'r', 'e', 'n', 't']]]],
   sepD,
   .node ruleVp [.node ruleTv [leafD ['h', 'a', 's']], sepD,
     .node ruleQnp [.node ruleNumeral [.node ruleTwo [leafD ['t', 'w', 'o']]], sepD, .node ruleNbar [.node ruleChildren [leafD ['c', 'h', 'i', 'l', 'd', 'r', 'e', 'n']]]]]]

theorem kin_derives : Derives whoOracles kinGrammar kinText [rel cRoot [['V', '1']]] 0 29 [kinDerivation] := by
  have step : ∀ (r : GRule Attachment) (c : Constituent) {cs : List Constituent} {i j k : Nat} {ds es : List (DTree Attachment)},
      r ∈ kinGrammar → r.ante.equals c = true → Derives whoOracles kinGrammar kinText r.cons i j ds → Derives whoOracles kinGrammar kinText cs j k es →
      Derives whoOracles kinGrammar kinText (c :: cs) i k (.node r ds :: es) := fun r c _ _ _ _ _ _ h he h1 h2 => by
    refine .node (kin_use h (C36_no_optional _ ?_)) he h1 h2
    simp only [kinGrammar, List.mem_cons, List.not_mem_nil, or_false] at h
    rcases h with rfl | rfl | rfl | rfl | rfl | rfl | rfl | rfl | rfl | rfl | rfl | rfl <;> decide
  have here : ∀ r : GRule Attachment, r = ruleS ∨ r = ruleVp ∨ r = ruleTv ∨ r = ruleNp ∨ r = ruleQnp ∨ r = ruleNbar ∨ r = ruleEvery ∨ r = ruleNumeral ∨
      r = ruleTwo ∨ r = ruleThree ∨ r = ruleParent ∨ r = ruleChildren → r ∈ kinGrammar := fun r h => by
    simpa only [kinGrammar, List.mem_cons, List.not_mem_nil, or_false] using h
  have word : ∀ (w : Str) (i j : Nat) {cs : List Constituent} {k : Nat} {es : List (DTree Attachment)}, j = i + w.length → j ≤ kinText.length →
      (kinText.drop i).take w.length = w → Derives whoOracles kinGrammar kinText cs j k es →
      Derives whoOracles kinGrammar kinText (exW w :: cs) i k (leafD w :: es) := fun w i j _ _ _ h1 h2 h3 h => .leaf (kin_word h1 h2 h3) h
  have noun : ∀ (r : GRule Attachment) (w : Str) (i j : Nat) {cs : List Constituent} {k : Nat} {es : List (DTree Attachment)},
      r ∈ kinGrammar → r.ante = rel cNoun [cE1] → r.cons = [exW w] → j = i + w.length → j ≤ kinText.length → (kinText.drop i).take w.length = w →
      Derives whoOracles kinGrammar kinText cs j k es →
      Derives whoOracles kinGrammar kinText (rel cNbar [cE1] :: cs) i k (.node ruleNbar [.node r [leafD w]] :: es) :=
    fun r w i j _ _ _ hr ha hc h1 h2 h3 h => by
      refine step ruleNbar _ (here _ (by simp)) rfl (step r _ hr (by rw [ha]; rfl) ?_ (.nil j)) h
      rw [hc]
      exact word w i j h1 h2 h3 (.nil j)
  refine step ruleS _ (here _ (by simp)) rfl ?_ (.nil 29)
  refine step ruleNp _ (j := 12) (here _ (by simp)) rfl ?_ ?_
  · refine step ruleEvery _ (j := 5) (here _ (by simp)) rfl (word _ 0 5 (by decide) (by decide) (by decide) (.nil 5)) ?_
    refine .leaf (j := 6) (kin_sep (by decide) (by decide) (by decide)) ?_
    exact noun ruleParent _ 6 12 (here _ (by simp)) rfl rfl (by decide) (by decide) (by decide) (.nil 12)
  · refine .leaf (j := 13) (kin_sep (by decide) (by decide) (by decide)) ?_
    refine step ruleVp _ (j := 29) (here _ (by simp)) rfl ?_ (.nil 29)
    refine step ruleTv _ (j := 16) (here _ (by simp)) rfl (word _ 13 16 (by decide) (by decide) (by decide) (.nil 16)) ?_
    refine .leaf (j := 17) (kin_sep (by decide) (by decide) (by decide)) ?_
    refine step ruleQnp _ (j := 29) (here _ (by simp)) rfl ?_ (.nil 29)
    refine step ruleNumeral _ (j := 20) (here _ (by simp)) rfl
      (step ruleTwo _ (j := 20) (here _ (by simp)) rfl (word _ 17 20 (by decide) (by decide) (by decide) (.nil 20)) (.nil 20)) ?_
    refine .leaf (j := 21) (kin_sep (by decide) (by decide) (by decide)) ?_
    exact noun ruleChildren _ 21 29 (here _ (by simp)) rfl rfl (by decide) (by decide) (by decide) (.nil 29)

theorem kin_tree : TreesOf Eq [kinDerivation] [kinTree] := by
  have leaf : ∀ (w : Str) {ds : List (DTree Attachment)} {ts : List (ParseTree Attachment)}, TreesOf Eq ds ts →
      TreesOf Eq (leafD w :: ds) (leafTree w :: ts) := fun w _ _ h => .leaf ⟨by simp [GRule.new, Constituent.equals], rfl⟩ h
  have sep : ∀ {ds : List (DTree Attachment)} {ts : List (ParseTree Attachment)}, TreesOf Eq ds ts →
      TreesOf Eq (sepD :: ds) (leafTree [' '] :: ts) := fun h => .leaf ⟨by decide, rfl⟩ h
  exact .node rfl (.node rfl (.node rfl (leaf _ .nil) (sep (.node rfl (.node rfl (leaf _ .nil) .nil) .nil)))
    (sep (.node rfl (.node rfl (leaf _ .nil) (sep (.node rfl (.node rfl (.node rfl (leaf _ .nil) .nil)
      (sep (.node rfl (.node rfl (leaf _ .nil) .nil) .nil))) .nil))) .nil))) .nil

/-- The conditions of **C76** hold for the tree. -/
theorem kin_specTree (P : Program) : SpecTree kinAr P kinSlots (fun r => sigOf kinKinds r.ante) kinSpec kinTree :=
  (derived_spec kin_rulesOk kin_spec kin_derives _ kin_tree).good.1

/-- Compose the tree and solve the query. -/
def kinAsk : Bool := match composeSentence kinTree ⟨0, []⟩ with
  | .ok _ (_, c) => (match (solverAt (modelOf kinKB.others) 12).solve c.sem [] kinKB.world with
    | .ok _ (.rows bs) => !bs.isEmpty
    | _ => false)
  | _ => false

theorem kin_asked : kinAsk = true := by decide +kernel

/-- As the program says yes, every parent has exactly two children. -/
theorem kin_holds : (∃ x, Plain x ∧ Derivable (program [kinTables] kinRules) "parent" [x]) ∧
    ∀ x, Plain x → Derivable (program [kinTables] kinRules) "parent" [x] →
      Exactly 2 fun y => Plain y ∧ Derivable (program [kinTables] kinRules) "child" [y] ∧ Derivable (program [kinTables] kinRules) "have" [x, y] := by
  have h := kin_asked
  unfold kinAsk at h
  split at h
  · rename_i g' roots c hc
    split at h
    · rename_i w bs hs
      obtain ⟨vals, hl, hp, ht⟩ := (C76_yes_no kinKB kin_heads kin_core (by simp [kinTree, ParseTree.children]) (kin_specTree _) ⟨rfl, by decide⟩ rfl hc hs).1
        (by rintro rfl; cases h)
      obtain ⟨_, h1, _, _⟩ := composeSentence_parts hc
      rw [(nextVars_roots h1).2.1] at hl
      match vals, hl with
      | [v], _ => exact (kin_meaning _ (hp v (by simp))).1 ht
    · cases h
  · cases h

/-! In the grammar of the test all noun phrases have one category, and a numeral may be put around `every`. -/

def ruleVpAny := kinRule (rel cVp [cE1]) [rel cTv [cE1, cE2], exSep, rel cNp [cE2]] applyOther
def ruleDetNumber := kinRule (rel cDet [cE1]) [rel cNumber [cE1]] makeNumeral
/-- The tree of `two parent has every children`. -/
def pairsTree : ParseTree Attachment := .node cRoot
  [.node cNp [.node cDet [wordTree cNumber ['t', 'w', 'o'] ruleTwo] [] ruleDetNumber, leafTree [' '], parentTree] [] ruleNp, leafTree [' '],
   .node cVp [wordTree cTv ['h', 'a', 's'] ruleTv, leafTree [' '], .node cNp [wordTree cDet ['e', 'v', 'e', 'r', 'y'] ruleEvery, leafTree [' '], childrenTree] [] ruleNp] [] ruleVpAny]
  [] ruleS

/-- One parent, with two children. -/
def pairsTables : Dict (List (List Value)) :=
  [("have", [[.str "mary", .str "lucy"], [.str "mary", .str "bonny"]]), ("parent", [[.str "mary"]]), ("child", [[.str "lucy"], [.str "bonny"]])]

/-- Compose the tree and solve the query. -/
def pairsAsk : Bool := match composeSentence pairsTree ⟨0, []⟩ with
  | .ok _ (_, c) => (match (solverAt (modelOf [tableModule InfState pairsTables]) 12).solve c.sem [] InfState.init with
    | .ok _ (.rows bs) => !bs.isEmpty
    | _ => false)
  | _ => false

end Ex

/-- **C76** (why a numeral needs a body that binds nothing else) In the grammar of `tests/unit/Quantifier_test.py`, where the object of a
numeral's sentence may be a noun phrase with `every`, the solutions that are counted are pairs: `two parent has every children` is answered
with yes, although there is only one parent. -/
theorem C76_counts_pairs : Ex.pairsAsk = true ∧ (∀ x y, Derivable (program [Ex.pairsTables] []) "parent" [x] →
    Derivable (program [Ex.pairsTables] []) "parent" [y] → x = y) := by
  refine ⟨by decide +kernel, fun x y hx hy => ?_⟩
  have key : ∀ {p vs}, Derivable (program [Ex.pairsTables] []) p vs → p = "parent" → vs = [.str "mary"] := by
    intro p vs h hp
    cases h with
    | fact h =>
      obtain ⟨db, hdb, rows, h1, h2⟩ := h
      simp only [List.mem_singleton] at hdb
      subst hdb hp
      have : rows = [[.str "mary"]] := by simpa [Ex.pairsTables, Dict.get] using h1.symm
      subst this
      simpa using h2
    | rule σ h _ _ => cases h
  have h1 := key hx rfl
  have h2 := key hy rfl
  simp only [List.cons.injEq, and_true] at h1 h2
  rw [h1, h2]

end Verif

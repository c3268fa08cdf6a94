import Verif.Props.TypedQuestions

/-!
# C95: the reply to a typed question when the query is optimised

All example systems of the repository give the semantic composer a `BasicQueryOptimizer`. It sees a question as one atom, the intent, with the content as an
argument, and sorts the content.
-/

namespace Verif

section
variable {W : Type} {ar : String → Option Nat} {tables : List (Dict (List (List Value)))} {rs : List HornRule}

/-- The content of a question that the optimiser does not spoil: no value is hidden in another one, what comes earlier or later does not matter (`Ordered`), also
inside the parts (`FormsTidy`). -/
structure Sortable (q : List Form) : Prop where
  simple : FormsSimple q
  ordered : Ordered q fun _ => False
  tidy : FormsTidy q fun _ => False

/-- Nothing is moved to the front. -/
theorem frontSort_inside {p : String} (hp : p ≠ "resolve_name") {pre : List Value} (hpre : ∀ v ∈ pre, Simple v) {q : List Form} (hq : FormsSimple q) :
    frontSort [.tuple (.str p :: (pre ++ [.list (formValues q)]))] = .ok [.tuple (.str p :: (pre ++ [.list (formValues q)]))] := by
  have hterms : extractTerms (pre ++ [.list (formValues q)]) = .ok ([], pre ++ [.list (formValues q)]) := by
    induction pre with
    | nil => simp [extractTerms, extractList_forms q hq]
    | cons v vs ih =>
      have := ih fun u hu => hpre u (by simp [hu])
      have hv := hpre v (by simp)
      cases v <;> first | (simp [Simple] at hv; done) | simp [extractTerms, this]
  simp [frontSort, extractList, extractOne, hp, extractTerms, hterms]

/-- What the optimiser makes of an atom with a query as its last argument. -/
theorem KnowledgeBase.optimize_inside (K : KnowledgeBase W ar tables rs) (hcore : ∀ p ∈ coreNames, NotDefined K.others K.world p) (hs : K.SmallSizes)
    {p : String} (hp : p ≠ "resolve_name") {pre : List Value} (hpre : ∀ v ∈ pre, Simple v) {q : List Form} (hq : FormsSimple q) {roots : List String} {w1 : W}
    {opt : List Value} (h : Verif.optimize K.modules [.tuple (.str p :: (pre ++ [.list (formValues q)]))] roots K.world = .ok w1 opt) :
    w1 = K.world ∧ ∃ q1, Adv (Form.early (findRelations K.modules K.world)) q q1 ∧ opt = [.tuple (.str p :: (pre ++ [.list (formValues q1)]))] := by
  rw [Verif.optimize, frontSort_inside hp hpre hq] at h
  obtain ⟨w2, s1, h1, h⟩ := M.bind_eq_ok.1 h
  obtain ⟨rfl, h1⟩ := M.lift_eq_ok.1 h1
  cases h1
  obtain ⟨w3, s2, h2, h⟩ := M.bind_eq_ok.1 h
  obtain ⟨rfl, rfl⟩ := M.pure_eq_ok.1 h
  rw [sortComposition, M.bind_ok (M.gets_run _ _)] at h2
  obtain ⟨k, hk⟩ : ∃ k, costFuelAll [Value.tuple (.str p :: (pre ++ [.list (formValues q)]))] = k + 1 := ⟨_, rfl⟩
  rw [hk, sortByCost] at h2
  obtain ⟨w4, cs, h3, h2⟩ := M.bind_eq_ok.1 h2
  obtain ⟨rfl, h3⟩ := M.lift_eq_ok.1 h3
  obtain ⟨c, rfl⟩ : ∃ c, cs = [(Value.tuple (.str p :: (pre ++ [.list (formValues q)])), c)] := by
    simp only [costAll] at h3
    split at h3
    · cases h3
    · cases h3; exact ⟨_, rfl⟩
  simp only [sortCosts, insertCost, List.map_cons, List.map_nil] at h2
  obtain ⟨w5, first, h4, h2⟩ := M.bind_eq_ok.1 h2
  obtain ⟨w6, rest, h5, h2⟩ := M.bind_eq_ok.1 h2
  obtain ⟨rfl, rfl⟩ := M.pure_eq_ok.1 h2
  have h5' : w5 = w6 ∧ rest = [] := by
    cases k <;> simp [sortByCost] at h5 <;> exact ⟨h5.1, h5.2⟩
  obtain ⟨rfl, rfl⟩ := h5'
  have key : w5 = K.world ∧ ∃ q1, Adv (Form.early (findRelations K.modules K.world)) q q1 ∧ first = .tuple (.str p :: (pre ++ [.list (formValues q1)])) := by
    rw [sortArguments] at h4
    split at h4
    · obtain ⟨w7, ts, h6, h4⟩ := M.bind_eq_ok.1 h4
      obtain ⟨rfl, rfl⟩ := M.pure_eq_ok.1 h4
      simp only [elements] at h6
      obtain ⟨r1, rfl, h6'⟩ := sortArgs_other rfl h6
      suffices ∀ (pre : List Value) (out : List Value), (∀ v ∈ pre, Simple v) →
          sortArgs (sortByCost (findRelations K.modules K.world) k []) (pre ++ [.list (formValues q)]) K.world = .ok w7 out →
          w7 = K.world ∧ ∃ q1, Adv (Form.early (findRelations K.modules K.world)) q q1 ∧ out = pre ++ [.list (formValues q1)] by
        obtain ⟨a, q1, b, rfl⟩ := this pre r1 hpre h6'
        exact ⟨a, q1, b, rfl⟩
      intro pre
      induction pre with
      | nil =>
        intro out _ h
        obtain ⟨q', r2, ha, rfl, h'⟩ := sortArgs_list (early := Form.early (findRelations K.modules K.world))
          (fun w' ys h => sortByCost_forms (K.fit hcore hs) k [] q _ _ _ hq h) h
        obtain ⟨rfl, rfl⟩ := sortArgs_nil h'
        exact ⟨rfl, q', ha, rfl⟩
      | cons v vs ih =>
        intro out hv h
        obtain ⟨r2, rfl, h'⟩ := sortArgs_other (hv v (by simp)).not_atomList h
        obtain ⟨a, q1, b, rfl⟩ := ih _ (fun u hu => hv u (by simp [hu])) h'
        exact ⟨a, q1, b, rfl⟩
    · rename_i hn
      obtain ⟨rfl, rfl⟩ := M.pure_eq_ok.1 h4
      refine ⟨rfl, q, ?_, rfl⟩
      cases q with
      | nil => exact Adv.nil
      | cons f fs =>
        exfalso
        apply hn
        simp only [elements, List.any_cons, List.any_append, List.any_nil, isAtomList_cons, Bool.or_false, Bool.or_true]
  obtain ⟨rfl, q1, ha, rfl⟩ := key
  exact ⟨rfl, q1, ha, rfl⟩

/-- The optimiser does not raise. -/
theorem KnowledgeBase.optimize_inside_returns (K : KnowledgeBase W ar tables rs) (hcore : ∀ p ∈ coreNames, NotDefined K.others K.world p)
    (hdis : NotDefined K.others K.world "$disjunction") (hsz : K.ArgumentSizes) {p : String} (hp : p ≠ "resolve_name")
    (hun : ∀ r ∈ findRelations K.modules K.world p, r.relationSize = none) {pre : List Value} (hpre : ∀ v ∈ pre, Simple v)
    {q : List Form} {B : String → Prop} (hok : FormsOk ar q B) (hq : FormsSimple q) (roots : List String) :
    ∃ opt, Verif.optimize K.modules [.tuple (.str p :: (pre ++ [.list (formValues q)]))] roots K.world = .ok K.world opt := by
  rw [Verif.optimize, frontSort_inside hp hpre hq]
  generalize hat : Value.tuple (.str p :: (pre ++ [.list (formValues q)])) = a0
  have hl : (M.lift (.ok [a0]) : M W _) K.world = .ok K.world [a0] := rfl
  rw [M.bind_ok hl]
  cases h : sortComposition K.modules [a0] K.world with
  | ok w' s2 =>
    obtain ⟨rfl, _⟩ := C46_greedy h
    rw [M.bind_ok h]
    exact ⟨_, rfl⟩
  | oof => exact absurd h (C46_terminates _ _ _)
  | err w' e =>
    obtain ⟨a, bound, ha, hc⟩ := C46_raises h
    exfalso
    cases ha with
    | top ha =>
      rw [List.mem_singleton] at ha
      subst ha
      obtain ⟨c, hc'⟩ := atomCost_total (mods := K.modules) (w := K.world) (q := [(p, pre ++ [.list (formValues q)])]) (a := (p, pre ++ [.list (formValues q)]))
        (by intro a ha; rw [List.mem_singleton] at ha; subst ha; exact fun r hr => .inl (hun r hr)) (by simp) bound
      rw [← hat] at hc
      rw [show atomCost (findRelations K.modules K.world) bound (.tuple (.str p :: (pre ++ [.list (formValues q)]))) = .ok c from hc'] at hc
      cases hc
    | inside hb hv hi hs =>
      rw [List.mem_singleton] at hb
      subst hb
      rw [← hat] at hv
      simp only [elements, List.mem_cons, List.mem_append, List.not_mem_nil, or_false] at hv
      rcases hv with rfl | hv | rfl
      · obtain ⟨_, _, hi⟩ := hi
        cases hi
      · obtain ⟨_, _, rfl⟩ := hi
        exact hpre _ hv
      · obtain ⟨f, B', rfl, hfok⟩ := sorted_forms hs rfl hok hq
        obtain ⟨c, hc'⟩ := K.form_costs hcore hdis hsz hfok bound
        rw [show atomCost (findRelations K.modules K.world) bound f.toValue = .ok c from hc'] at hc
        cases hc

/-- What the optimiser makes of a question: it sorts the content. -/
theorem KnowledgeBase.optimize_question (K : KnowledgeBase W ar tables rs) (hcore : ∀ p ∈ coreNames, NotDefined K.others K.world p) (hs : K.SmallSizes)
    (a : Asked) (ρ : String → String) {q : List Form} (hq : FormsSimple q) (roots : List String) :
    ∃ atoms, a.composed ρ (.list (formValues q)) = .list atoms ∧ ∀ w1 opt, Verif.optimize K.modules atoms roots K.world = .ok w1 opt →
      w1 = K.world ∧ ∃ q1, Adv (Form.early (findRelations K.modules K.world)) q q1 ∧ .list opt = a.composed ρ (.list (formValues q1)) := by
  cases a with
  | list x =>
    refine ⟨_, rfl, fun w1 opt h => ?_⟩
    obtain ⟨e, q1, ha, rfl⟩ := K.optimize_inside hcore hs (p := "intent_list") (by decide) (pre := [.str (ρ x)]) (by simp [Simple]) hq h
    exact ⟨e, q1, ha, rfl⟩
  | value x =>
    refine ⟨_, rfl, fun w1 opt h => ?_⟩
    obtain ⟨e, q1, ha, rfl⟩ := K.optimize_inside hcore hs (p := "intent_value") (by decide) (pre := [.str (ρ x)]) (by simp [Simple]) hq h
    exact ⟨e, q1, ha, rfl⟩
  | yesNo =>
    refine ⟨_, rfl, fun w1 opt h => ?_⟩
    obtain ⟨e, q1, ha, rfl⟩ := K.optimize_inside hcore hs (p := "intent_yn") (by decide) (pre := []) (by simp) hq h
    exact ⟨e, q1, ha, rfl⟩

/-- Sorting the content keeps what it means, and what is needed to ask for it. -/
theorem sorted_question {P : Program} {ms : List (Module W)} {w : W} {l : Lens W SimpleStore} {early : Form → Bool} (he : EarlyOk early) {q q1 : List Form}
    (ha : Adv early q q1) (ho : Sortable q) (A : Askable ms w l ar anyCall q) (hn : ∀ x ∈ formVars q, legalName x = true) :
    Askable ms w l ar anyCall q1 ∧ (∀ x, x ∈ formVars q ↔ x ∈ formVars q1) ∧ (∀ x, x ∈ formBinds q ↔ x ∈ formBinds q1) ∧
      (Satisfiable P q1 ↔ Satisfiable P q) ∧ ∀ x v, IsAnswer P q1 x v ↔ IsAnswer P q x v := by
  obtain ⟨_, k⟩ := ha.keeps (P := P) (ar := ar) he ho.ordered ho.tidy
  have hok := k.ok A.ok
  refine ⟨⟨A.buffer, A.empty, hok, formsCalled_any q1 _, ?_⟩, ha.vars, ha.binds, ?_, ?_⟩
  · simp only [legal]
    exact legal_forms hok fun x hx => hn x ((ha.vars x).2 hx)
  · exact exists_congr fun σ => and_congr_right fun h => (k.sat σ h).symm
  · exact fun x v => exists_congr fun σ => and_congr_right fun h => and_congr_right fun _ => (k.sat σ h).symm

/-- What the composer makes of the tree of a text that the parser gives first, and the names that have been used then. -/
def Meant (E : Oracles) (rules : List (GRule Attachment)) (text : Str) (gen : Gen) (t : ParseTree Attachment) (gen' : Gen) (c : Composed) : Prop :=
  ∃ fuel depth rest roots, (basicParse E fuel depth (Grammar.new rules) text).1 = .ok (t :: rest, .none) ∧ composeSentence t gen = .ok gen' (roots, c)

/-- The optimiser does not spoil the content of the question. -/
def SortableText (ar : String → Option Nat) (E : Oracles) (rules : List (GRule Attachment)) (asks : GRule Attachment → Asked) (text : Str) (gen : Gen) : Prop :=
  ∀ t gen' c ρ q, Meant E rules text gen t gen' c → c.sem = (asks t.rule).composed ρ (.list (formValues q)) → FormsOk ar q (fun _ => False) → Sortable q

/-- The optimiser does not spoil the content of the questions that are asked one after the other. -/
def SortableDialog (ar : String → Option Nat) (E : Oracles) (rules : List (GRule Attachment)) (asks : GRule Attachment → Asked) : List Str → Gen → Prop
  | [], _ => True
  | text :: texts, gen => SortableText ar E rules asks text gen ∧
    ∀ t gen' c, Meant E rules text gen t gen' c → SortableDialog ar E rules asks texts gen'

end

section
variable {W : Type} {ar : String → Option Nat} {tables : List (Dict (List (List Value)))} {rs : List HornRule} {l : Lens W SimpleStore} {g : W → InfState}
  {wg : Grammar WriteSem} {f : List Value → Except Err Value} {yes no : Str}
  {R : List String} {kinds : Str → Nat → Kind} {spec : GRule Attachment → List Value → RuleParts} {asks : GRule Attachment → Asked}

/-- **C95** As C94, for a pipeline whose composer optimises the query: if what comes earlier or later in the content of the question does not matter, then the
reply is right. -/
theorem C95_reply (K : KnowledgeBase W ar tables rs) (hrr : HeadsBound rs) (hcore : ∀ p ∈ coreNames, NotDefined K.others K.world p) (hs : K.SmallSizes)
    (hbuf : StoresIn K.others l outputRelations K.world) (hempty : l.get K.world = SimpleStore.clear)
    (E : Oracles) (rules : List (GRule Attachment)) (ok : RulesOk rules)
    (hspec : ∀ r, Usable rules r → r.ante.predicate ≠ cRoot → SpecRule ar R kinds spec r)
    (hquest : ∀ r, Usable rules r → r.ante.predicate = cRoot → QuestionRule ar R kinds spec asks r ∧ Served K.others K.world g wg f yes no (asks r))
    (hnest : ∀ r, Usable rules r → ∀ c ∈ r.cons, c.pos = .relation → c.predicate ≠ cRoot)
    (text : Str) (hl : LowerOk E (normalizeSpace text)) (fuel depth n m : Nat)
    {fuel' depth' : Nat} (texts : List Str) {s : Session W} (hg : s.grammar = parseHistory E fuel' depth' (Grammar.new rules) texts)
    (hw : s.world = K.world) (hder : ∃ d, WholeDerivation E rules (normalizeSpace text) d) (hsort : SortableText ar E rules asks text s.gen)
    {s' : Session W} {reply : Value}
    (h : turn (solverAt K.modules n).inSession (sentencePipeline E fuel depth (some K.modules) (solverAt K.modules n)) wg l.inSession m text s = .ok s' reply) :
    s'.world = K.world ∧ s'.grammar = parseHistory E fuel' depth' (Grammar.new rules) (texts ++ [normalizeSpace text]) ∧
    ∃ t d, WholeDerivation E rules (normalizeSpace text) d ∧ TreesOf Eq [d] [t] ∧
      (∀ d', WholeDerivation E rules (normalizeSpace text) d' → ∃ t', TreesOf (fun r r' => r.equals r' = true) [d'] [t'] ∧
        (t' = t ∨ RankedBefore t t')) ∧
      RightReply (program tables rs) spec t f yes no (asks t.rule) reply ∧ ∃ c, Meant E rules text s.gen t s'.gen c := by
  obtain ⟨st, res, henter, hgo⟩ : ∃ st res, enter (solverAt K.modules n).inSession
      (sentencePipeline E fuel depth (some K.modules) (solverAt K.modules n)) (Request.new text, s) = .ok st res ∧
      generateOutput (solverAt K.modules n).inSession wg l.inSession m st.2 = .ok s' reply := by
    simp only [turn] at h
    cases he : enter (solverAt K.modules n).inSession (sentencePipeline E fuel depth (some K.modules) (solverAt K.modules n)) (Request.new text, s) with
    | ok st res => rw [he] at h; exact ⟨st, res, rfl, h⟩
    | err st e => rw [he] at h; cases h
    | oof => rw [he] at h; cases h
  rw [generateOutput_inSession] at hgo
  obtain ⟨w2, hgen, rfl⟩ := inWorld_ok.1 hgo
  obtain ⟨hgr, h⟩ := enter_sentence henter
  have hhist : st.2.grammar = parseHistory E fuel' depth' (Grammar.new rules) (texts ++ [normalizeSpace text]) := by
    rw [hgr, hg, parseHistory, parseHistory, List.foldl_append]; rfl
  rw [hg, C33_no_memory_block] at h
  rcases h with ⟨e, hp, _⟩ | ⟨t, rest, g', roots, c, w1, w2', w3, forms, o, out, hp, hcomp, hforms, hwr, hexec, hsolve, hgn, _, _⟩
  · obtain ⟨d, hd⟩ := hder
    exact absurd hd (no_first ok hl hp d)
  · obtain ⟨c0, d, hc1, hc2, hd, htree, hfirst⟩ := first_derivation ok hl hp
    obtain ⟨cat, cs, form, r, rfl, hu, hur, hcne, hts⟩ := question_tree (P := program tables rs) ok hspec hnest hc1 hc2 hd htree
    obtain ⟨hq, hserved⟩ := hquest r hu hur
    obtain ⟨i1, i2, ρ, q, hsem, hb, f1, f2, f3, f4, f5⟩ := composed_question hbuf hempty hq hcne hts hcomp
    have hmeant : Meant E rules text s.gen (.node cat cs form r) st.2.gen c := by
      rw [hgn]
      exact ⟨fuel, depth, rest, roots, hp, hcomp⟩
    have ho : Sortable q := hsort _ _ _ ρ q hmeant hsem f2.ok
    rw [i1] at hwr
    rw [i2] at hexec
    simp only [writeAll, M.pure_eq_ok] at hwr
    obtain ⟨rfl, _⟩ := hwr
    have hw3 : w1 = w3 := by
      cases n with
      | zero => cases hexec
      | succ n =>
        have : (solverAt K.modules (n + 1)).solve (.list []) [] w1 = .ok w1 (.rows [[]]) := rfl
        rw [this] at hexec
        cases hexec; rfl
    subst hw3
    obtain ⟨atoms, hat, hopt⟩ := K.optimize_question hcore hs (asks r) ρ ho.simple roots
    rw [hsem, hat, hw] at hforms
    obtain ⟨opt, ho1, ho2⟩ := composer_optimises hforms c.inferences (.list c.executable)
    obtain ⟨rfl, q1, ha, he⟩ := hopt _ _ ho1
    rw [ho2, he] at hsolve
    obtain ⟨A1, k1, k2, k3, k4⟩ := sorted_question (P := program tables rs) (early_ok _) ha ho f2 f5
    obtain ⟨rfl, hright⟩ := composed_reply (spec := spec) (t := .node cat cs form r) (K.base hrr hcore).toIn (fun x hx h => f1 x hx ((k1 x).2 h)) A1 (k3.trans f3)
      (fun x hx v => (k4 _ v).trans (f4 x hx v)) hserved (fun x hx => ⟨(hb x hx).1, (k2 _).1 (hb x hx).2⟩) hsolve hgen
    exact ⟨rfl, hhist, _, d, ⟨c0, hc1, hc2, hd⟩, htree, hfirst, hright, c, hmeant⟩

theorem served_unsized {ms : List (Module W)} {w : W} {a : Asked} (h : Served ms w g wg f yes no a) (ρ : String → String) (v : Value) :
    ∃ p pre, a.composed ρ v = .list [.tuple (.str p :: (pre ++ [v]))] ∧ p ≠ "resolve_name" ∧ (∀ u ∈ pre, Simple u) ∧
      ∀ r ∈ findRelations (modelOf ms) w p, r.relationSize = none := by
  cases a with
  | list x => exact ⟨"intent_list", [.str (ρ x)], rfl, by decide, by simp [Simple], by rw [h.1.relation]; simp [ruleRelation]⟩
  | value x => exact ⟨"intent_value", [.str (ρ x)], rfl, by decide, by simp [Simple], by rw [h.1.relation]; simp [ruleRelation]⟩
  | yesNo => exact ⟨"intent_yn", [], rfl, by decide, by simp, by rw [h.1.relation]; simp [ruleRelation]⟩

/-- **C95** (returning) If moreover the functions of the grammar return, no category is rewritten to itself without end, and the calls of the rules go down, then,
with enough steps and depth, there always is a right reply, or one of these exceptions: the one that the content of the question raises in the order that the
optimiser chose; the one that the function that formats a list raises; or, if a value is asked for that is not there, "No rule found". The optimiser does not
raise. -/
theorem C95_returns (K : KnowledgeBase W ar tables rs) (hrr : HeadsBound rs) (hcore : ∀ p ∈ coreNames, NotDefined K.others K.world p)
    (hdis : NotDefined K.others K.world "$disjunction") (hs : K.SmallSizes) (hsz : K.ArgumentSizes)
    (hbuf : StoresIn K.others l outputRelations K.world) (hempty : l.get K.world = SimpleStore.clear)
    (E : Oracles) (rules : List (GRule Attachment)) (ok : RulesOk rules)
    (hspec : ∀ r, Usable rules r → r.ante.predicate ≠ cRoot → SpecRule ar R kinds spec r)
    (hquest : ∀ r, Usable rules r → r.ante.predicate = cRoot → QuestionRule ar R kinds spec asks r ∧ Served K.others K.world g wg f yes no (asks r))
    (hnest : ∀ r, Usable rules r → ∀ c ∈ r.cons, c.pos = .relation → c.predicate ≠ cRoot)
    {V : Str → Nat → Value → Prop} (hV : ∀ p k v d, V p k v → V p k (unify d v)) (hret : ∀ r, Usable rules r → ReturnsRule V r)
    (wf : WellFounded (UnitStep rules)) {rank : String → Nat} (hrank : Descends (program tables rs) rank)
    (text : Str) (hl : LowerOk E (normalizeSpace text))
    {fuel' depth' : Nat} (texts : List Str) {s : Session W} (hg : s.grammar = parseHistory E fuel' depth' (Grammar.new rules) texts)
    (hw : s.world = K.world) (hder : ∃ d, WholeDerivation E rules (normalizeSpace text) d) (hsort : SortableText ar E rules asks text s.gen) :
    ∃ N, ∀ fuel depth n m, N ≤ fuel → N ≤ depth → N ≤ n → 1 ≤ m →
      (∃ s' reply t d, turn (solverAt K.modules n).inSession (sentencePipeline E fuel depth (some K.modules) (solverAt K.modules n)) wg l.inSession m text s =
          .ok s' reply ∧
        s'.world = K.world ∧ s'.grammar = parseHistory E fuel' depth' (Grammar.new rules) (texts ++ [normalizeSpace text]) ∧
        WholeDerivation E rules (normalizeSpace text) d ∧ TreesOf Eq [d] [t] ∧
        (∀ d', WholeDerivation E rules (normalizeSpace text) d' → ∃ t', TreesOf (fun r r' => r.equals r' = true) [d'] [t'] ∧
          (t' = t ∨ RankedBefore t t')) ∧
        RightReply (program tables rs) spec t f yes no (asks t.rule) reply ∧ ∃ c, Meant E rules text s.gen t s'.gen c) ∨
      ∃ s' e t d, turn (solverAt K.modules n).inSession (sentencePipeline E fuel depth (some K.modules) (solverAt K.modules n)) wg l.inSession m text s =
          .err s' e ∧
        WholeDerivation E rules (normalizeSpace text) d ∧ TreesOf Eq [d] [t] ∧
        (Excused (program tables rs) spec t f (asks t.rule) e ∨
          ∃ gen' roots c atoms opt q ρ b k w', composeSentence t s.gen = .ok gen' (roots, c) ∧ c.sem = .list atoms ∧
            Verif.optimize K.modules atoms roots K.world = .ok K.world opt ∧ .list opt = (asks t.rule).composed ρ (.list (formValues q)) ∧
            FormsOk ar q (fun _ => False) ∧ (∀ x v, b.get x = some v → x ∉ formVars q) ∧ K.askForms k q b = .err w' e) := by
  obtain ⟨N, t, rest, c0, d, hp, hc1, hc2, hd, htree⟩ := first_tree ok wf hl hder
  obtain ⟨cat, cs, form, r, rfl, hu, hur, hcne, hts⟩ := question_tree (P := program tables rs) ok hspec hnest hc1 hc2 hd htree
  obtain ⟨hq, hserved⟩ := hquest r hu hur
  obtain ⟨g', ⟨roots, c⟩, hcomp, hval⟩ := sentence_composes hV ok hret (fun r hr => by
    by_cases h : r.ante.predicate = cRoot
    · exact ⟨(hquest r hr h).1.noExec, (hquest r hr h).1.noDialog⟩
    · exact ⟨(hspec r hr h).noExec, (hspec r hr h).noDialog⟩) hc2 hd htree hcne s.gen
  obtain ⟨i1, i2, ρ, q, hsem, hb, f1, f2, f3, f4, f5⟩ := composed_question hbuf hempty hq hcne hts hcomp
  have ho : Sortable q := hsort _ _ _ ρ q ⟨N, N, rest, roots, hp N N (Nat.le_refl _) (Nat.le_refl _), hcomp⟩ hsem f2.ok
  obtain ⟨atoms, hat, hopt⟩ := K.optimize_question hcore hs (asks r) ρ ho.simple roots
  obtain ⟨p, pre, hcm, p1, p2, p3⟩ := served_unsized hserved ρ (.list (formValues q))
  obtain ⟨opt, hop⟩ : ∃ opt, Verif.optimize K.modules atoms roots K.world = .ok K.world opt := by
    rw [hat] at hcm
    cases hcm
    exact K.optimize_inside_returns hcore hdis hsz p1 p3 p2 f2.ok ho.simple roots
  obtain ⟨_, q1, ha, he⟩ := hopt _ _ hop
  obtain ⟨A1, k1, k2, k3, k4⟩ := sorted_question (P := program tables rs) (early_ok _) ha ho f2 f5
  obtain ⟨forms, hforms, hlast⟩ := composer_optimised hop
  refine ⟨max N (formsDepth rank q1 + 4), fun fuel depth n m hf hdp hn hm => ?_⟩
  have hx : (solverAt K.modules n).solve (.list []) [] K.world = .ok K.world (.rows [[]]) := by
    obtain ⟨n, rfl⟩ : ∃ k, n = k + 1 := ⟨n - 1, by omega⟩
    rfl
  have hp' : (basicParse E fuel depth s.grammar text).1 = .ok (.node cat cs form r :: rest, .none) := by
    rw [hg, C33_no_memory_block]
    exact hp fuel depth (by omega) (by omega)
  have hforms' : composerForms (some K.modules) c.sem roots s.world = .ok K.world forms := by rw [hw, hsem, hat]; exact hforms
  obtain ⟨o1, o2⟩ := enter_query (optimizer := some K.modules) (api := solverAt K.modules n) hp' hcomp i1 i2 hforms' hx
  rw [hlast, he] at o1 o2
  rcases composed_returns (spec := spec) K hrr hcore hrank (t := .node cat cs form r) (fun x hx h => f1 x hx ((k1 x).2 h)) A1
      (fun x hx v => (k4 _ v).trans (f4 x hx v)) hserved (fun x hx => ⟨(hb x hx).1, (k2 _).1 (hb x hx).2⟩) (n := n) (m := m) (by omega) hm with
    ⟨w', out, h1, h2⟩ | ⟨w', e, b, k, h1, h2, h3⟩
  · obtain ⟨st, hst⟩ := o1 _ _ h1
    have hworld : st.2.world = w' := by
      rcases (enter_sentence hst).2 with ⟨e, hp2, _⟩ | ⟨t2, rest2, g2, roots2, c2, w1, w2, w3, forms2, o2, out2, hp2, hcomp2, hforms2, hwr, hexec, hsolve, _⟩
      · rw [hp'] at hp2; cases hp2
      · rw [hp'] at hp2
        cases hp2
        rw [hcomp] at hcomp2
        cases hcomp2
        rw [hforms'] at hforms2
        cases hforms2
        rw [i1] at hwr
        cases hwr
        rw [i2, hx] at hexec
        cases hexec
        rw [hlast, he, h1] at hsolve
        cases hsolve
        rfl
    have hturn : turn (solverAt K.modules n).inSession (sentencePipeline E fuel depth (some K.modules) (solverAt K.modules n)) wg l.inSession m text s =
        inWorld (generateOutput (solverAt K.modules n) wg l m) st.2 := by
      simp only [turn, hst, generateOutput_inSession]
    rcases h2 with ⟨reply, h2⟩ | ⟨w'', e, h2, h3⟩
    · have ht : turn (solverAt K.modules n).inSession (sentencePipeline E fuel depth (some K.modules) (solverAt K.modules n)) wg l.inSession m text s =
          .ok { st.2 with world := K.world } reply := by
        rw [hturn]
        exact inWorld_ok.2 ⟨_, by rw [hworld]; exact h2, rfl⟩
      obtain ⟨r1, r2, t, d, r3, r4, r5, r6⟩ := C95_reply K hrr hcore hs hbuf hempty E rules ok hspec hquest hnest text hl fuel depth n m texts hg hw hder hsort ht
      exact .inl ⟨_, _, t, d, ht, r1, r2, r3, r4, r5, r6⟩
    · refine .inr ⟨{ st.2 with world := w'' }, e, _, d, ?_, ⟨c0, hc1, hc2, hd⟩, htree, .inl h3⟩
      rw [hturn]
      simp only [inWorld, hworld, h2]
  · obtain ⟨st, hst⟩ := o2 _ _ h1
    exact .inr ⟨st.2, e, _, d, by simp only [turn, hst], ⟨c0, hc1, hc2, hd⟩, htree,
      .inr ⟨g', roots, c, atoms, opt, q1, ρ, b, k, w', hcomp, hsem.trans hat, hop, he, A1.ok, h2, h3⟩⟩

/-- **C95** (dialogs) If a test of a dialog passes, then each of the expected replies is right. -/
theorem C95_dialog (K : KnowledgeBase W ar tables rs) (hrr : HeadsBound rs) (hcore : ∀ p ∈ coreNames, NotDefined K.others K.world p) (hs : K.SmallSizes)
    (hbuf : StoresIn K.others l outputRelations K.world) (hempty : l.get K.world = SimpleStore.clear)
    (E : Oracles) (rules : List (GRule Attachment)) (ok : RulesOk rules)
    (hspec : ∀ r, Usable rules r → r.ante.predicate ≠ cRoot → SpecRule ar R kinds spec r)
    (hquest : ∀ r, Usable rules r → r.ante.predicate = cRoot → QuestionRule ar R kinds spec asks r ∧ Served K.others K.world g wg f yes no (asks r))
    (hnest : ∀ r, Usable rules r → ∀ c ∈ r.cons, c.pos = .relation → c.predicate ≠ cRoot) (fuel depth n m : Nat) {fuel' depth' : Nat} :
    ∀ (tests : List (Str × Value)) (texts : List Str) {s s' : Session W}, s.grammar = parseHistory E fuel' depth' (Grammar.new rules) texts →
    s.world = K.world → (∀ p ∈ tests, LowerOk E (normalizeSpace p.1) ∧ ∃ d, WholeDerivation E rules (normalizeSpace p.1) d) →
    SortableDialog ar E rules asks (tests.map Prod.fst) s.gen →
    doRun (solverAt K.modules n).inSession (sentencePipeline E fuel depth (some K.modules) (solverAt K.modules n)) wg l.inSession m tests s = .ok s' () →
    s'.world = K.world ∧ ∀ p ∈ tests, ∃ t d, WholeDerivation E rules (normalizeSpace p.1) d ∧ TreesOf Eq [d] [t] ∧
      (∀ d', WholeDerivation E rules (normalizeSpace p.1) d' → ∃ t', TreesOf (fun r r' => r.equals r' = true) [d'] [t'] ∧
        (t' = t ∨ RankedBefore t t')) ∧
      RightReply (program tables rs) spec t f yes no (asks t.rule) p.2
  | [], texts, s, s', _, hw, _, _, h => by
    cases h
    exact ⟨hw, by simp⟩
  | (text, expected) :: tests, texts, s, s', hg, hw, hall, hsort, h => by
    obtain ⟨hl, hd⟩ := hall _ List.mem_cons_self
    simp only [doRun, M.bind_eq_ok] at h
    obtain ⟨s1, output, h1, h2⟩ := h
    obtain ⟨k1, k2, t, d, k3, k4, k5, k6, c, k7⟩ := C95_reply K hrr hcore hs hbuf hempty E rules ok hspec hquest hnest text hl fuel depth n m texts hg hw hd
      hsort.1 h1
    split at h2
    · rename_i he
      subst he
      obtain ⟨r1, r2⟩ := C95_dialog K hrr hcore hs hbuf hempty E rules ok hspec hquest hnest fuel depth n m tests _ k2 k1
        (fun p hp => hall p (List.mem_cons_of_mem _ hp)) (hsort.2 _ _ _ k7) h2
      refine ⟨r1, fun p hp => ?_⟩
      rcases List.mem_cons.1 hp with rfl | hp
      · exact ⟨t, d, k3, k4, k5, k6⟩
      · exact r2 p hp
    · cases h2

end
/-! ### An example: the three kinds of questions, with the optimiser -/

/-- The content of an intent. -/
def contentOf : Value → Option (List Value)
  | .list [.tuple ts] => match ts.getLast? with | some (.list vs) => some vs | _ => none
  | _ => none

/-- The content of a question, and the names that have been used. -/
def firstContent (E : Oracles) (rules : List (GRule Attachment)) (fuel depth : Nat) (text : Str) (gen : Gen) : Option (Gen × List Value) :=
  match (basicParse E fuel depth (Grammar.new rules) text).1 with
  | .ok (t :: _, _) => match composeSentence t gen with
    | .ok gen' (_, c) => (contentOf c.sem).map fun vs => (gen', vs)
    | _ => none
  | _ => none

theorem contentOf_composed (a : Asked) (ρ : String → String) (vs : List Value) : contentOf (a.composed ρ (.list vs)) = some vs := by
  cases a <;> rfl

theorem firstContent_meant {E : Oracles} {rules : List (GRule Attachment)} {fuel depth : Nat} {text : Str} {gen gen' gen'' : Gen} {vs : List Value}
    (hf : firstContent E rules fuel depth text gen = some (gen', vs)) {t : ParseTree Attachment} {c : Composed} (hm : Meant E rules text gen t gen'' c) :
    gen'' = gen' ∧ contentOf c.sem = some vs := by
  obtain ⟨fuel', depth', rest, roots, hp, hc⟩ := hm
  unfold firstContent at hf
  split at hf
  · rename_i t0 rest0 e0 hp0
    have a1 := basicParse_mono (Nat.le_max_left fuel fuel') (Nat.le_max_left depth depth') hp0
    have a2 := basicParse_mono (Nat.le_max_right fuel fuel') (Nat.le_max_right depth depth') hp
    rw [a1] at a2
    cases a2
    simp only [hc] at hf
    cases hv : contentOf c.sem with
    | none => rw [hv] at hf; cases hf
    | some us =>
      rw [hv] at hf
      cases hf
      exact ⟨rfl, rfl⟩
  · cases hf

theorem sortableText_of {ar : String → Option Nat} (hn : NamesApart ar) {E : Oracles} {rules : List (GRule Attachment)} {asks : GRule Attachment → Asked}
    {fuel depth : Nat} {text : Str} {gen gen' : Gen} {q : List Form} (hf : firstContent E rules fuel depth text gen = some (gen', formValues q))
    (hq : FormsOk ar q (fun _ => False)) (ho : Sortable q) : SortableText ar E rules asks text gen := by
  intro t gen'' c ρ q' hm hs hok
  obtain ⟨_, h⟩ := firstContent_meant hf hm
  rw [hs, contentOf_composed, Option.some.injEq] at h
  rw [forms_read hn q' q hok hq h]
  exact ho

namespace Ex

theorem kinHome_unsized {m : Module Home} (hm : m ∈ kinHomeKB.others) {p : String} {r : Relation Home} (h : m.relations kinHomeKB.world p = some r) :
    r.relationSize = none := by
  simp only [KnowledgeBase.others, kinHomeKB, List.mem_append, List.mem_cons, List.not_mem_nil, or_false] at hm
  rcases hm with rfl | rfl | rfl | rfl
  · simp only [tableModule] at h
    cases e : kinTables.get p with
    | none => rw [e] at h; cases h
    | some rows => rw [e] at h; cases h; rfl
  · simp only [inferenceModule] at h
    cases e : ((Lens.fst InfState (InfState × SimpleStore)).get kinHomeKB.world).relations.get p with
    | none => rw [e] at h; cases h
    | some f => rw [e] at h; cases h; rfl
  · simp only [inferenceModule] at h
    cases e : (homeIntents.get kinHomeKB.world).relations.get p with
    | none => rw [e] at h; cases h
    | some f => rw [e] at h; cases h; rfl
  · simp only [outputBuffer, memoryModule] at h
    cases e : outputRelations.get p with
    | none => rw [e] at h; cases h
    | some f => rw [e] at h; cases h; rfl

theorem kinHome_sizes : kinHomeKB.SmallSizes ∧ kinHomeKB.ArgumentSizes :=
  ⟨fun m hm p r h s hs => (by rw [kinHome_unsized hm h] at hs; cases hs), fun m hm p r h => .inl (kinHome_unsized hm h)⟩

/-- The contents of the questions. -/
def doesQuery : List Form := [.all "$3" [.atom "parent" [.var "$3"]] [.exactly [.atom "child" [.var "$4"], .atom "have" [.var "$3", .var "$4"]] (.num 3)]]
def findQuery : List Form := [.atom "parent" [.var "$5"]]

theorem doesQuery_ok : FormsOk kinAr doesQuery (fun _ => False) := by
  simp [doesQuery, FormsOk, Form.Ok, kinAr, ArgsOk, Value.isVar, Given, Plain, legal, formBinds, Form.binds, argVars]

theorem findQuery_ok : FormsOk kinAr findQuery (fun _ => False) := by
  simp [findQuery, FormsOk, Form.Ok, kinAr, ArgsOk, Value.isVar]

theorem doesQuery_sortable : Sortable doesQuery where
  simple := by simp [doesQuery, FormsSimple, Form.Simple, Simple]
  ordered := by apply ordered_of_index; decide +kernel
  tidy := by
    simp only [doesQuery, FormsTidy, Form.Tidy, true_and, and_true]
    refine ⟨?_, ?_, ?_⟩ <;> apply ordered_of_index <;> intro i
    · match i with
      | ⟨0, _⟩ => intro h; cases h
    · match i with
      | ⟨0, _⟩ => intro _ x _; simp [formVars, formBinds]
    · match i with
      | ⟨0, _⟩ => intro h; cases h
      | ⟨1, _⟩ => intro h; cases h

theorem findQuery_sortable : Sortable findQuery where
  simple := by simp [findQuery, FormsSimple, Form.Simple, Simple]
  ordered := by apply ordered_of_index; decide +kernel
  tidy := by simp only [findQuery, FormsTidy, Form.Tidy, and_true]

theorem typed_sortable : SortableDialog kinAr whoOracles typedGrammar typedAsks (typedTests.map Prod.fst) ⟨0, []⟩ := by
  have h1 : firstContent whoOracles typedGrammar 200 20 whichText ⟨0, []⟩ = some (⟨2, ["$1", "$2"]⟩, formValues whichQuery) := by decide +kernel
  have h2 : firstContent whoOracles typedGrammar 200 20 doesText ⟨2, ["$1", "$2"]⟩ = some (⟨4, ["$1", "$2", "$3", "$4"]⟩, formValues doesQuery) := by
    decide +kernel
  have h3 : firstContent whoOracles typedGrammar 200 20 findText ⟨4, ["$1", "$2", "$3", "$4"]⟩ =
      some (⟨5, ["$1", "$2", "$3", "$4", "$5"]⟩, formValues findQuery) := by decide +kernel
  refine ⟨sortableText_of kin_apart h1 whichQuery_ok ⟨whichQuery_orderly.simple, whichQuery_orderly.ordered, whichQuery_orderly.tidy⟩, fun t gen' c hm => ?_⟩
  obtain ⟨rfl, _⟩ := firstContent_meant h1 hm
  refine ⟨sortableText_of kin_apart h2 doesQuery_ok doesQuery_sortable, fun t gen' c hm => ?_⟩
  obtain ⟨rfl, _⟩ := firstContent_meant h2 hm
  exact ⟨sortableText_of kin_apart h3 findQuery_ok findQuery_sortable, fun t gen' c hm => trivial⟩

theorem optimised_dialog : ∃ s', doRun (solverAt kinHomeKB.modules 12).inSession (sentencePipeline whoOracles 200 20 (some kinHomeKB.modules)
    (solverAt kinHomeKB.modules 12)) typedWrite homeBuffer.inSession 2 typedTests ⟨Grammar.new typedGrammar, ⟨0, []⟩, kinHomeKB.world⟩ = .ok s' () := by
  have h : isOk (doRun (solverAt kinHomeKB.modules 12).inSession (sentencePipeline whoOracles 200 20 (some kinHomeKB.modules)
    (solverAt kinHomeKB.modules 12)) typedWrite homeBuffer.inSession 2 typedTests ⟨Grammar.new typedGrammar, ⟨0, []⟩, kinHomeKB.world⟩) = true := by
    decide +kernel
  exact isOk_iff.1 h

/-- **C95** applies: the replies in the dialog are right. -/
theorem optimised_right : ∀ p ∈ typedTests, ∃ t d, WholeDerivation whoOracles typedGrammar (normalizeSpace p.1) d ∧ TreesOf Eq [d] [t] ∧
    RightReply (program [kinTables, [], []] kinRules) typedSpec t asList ['y', 'e', 's'] ['n', 'o'] (typedAsks t.rule) p.2 := by
  obtain ⟨s', h⟩ := optimised_dialog
  obtain ⟨_, h⟩ := C95_dialog kinHomeKB kin_heads kinHome_core kinHome_sizes.1 kinHome_stores rfl whoOracles typedGrammar typed_rulesOk typed_spec typed_quest
    typed_nest 200 20 12 2 (fuel' := 200) (depth' := 20) typedTests [] rfl rfl (fun p hp => ⟨by intro i; simp [whoOracles], by
      simp only [typedTests, List.mem_cons, List.not_mem_nil, or_false] at hp
      rcases hp with rfl | rfl | rfl
      · exact typed_questions.1
      · exact typed_questions.2.1
      · exact typed_questions.2.2⟩) typed_sortable h
  intro p hp
  obtain ⟨t, d, h1, h2, _, h3⟩ := h p hp
  exact ⟨t, d, h1, h2, h3⟩

/-- **C95** (returning) applies. -/
example : ∃ N, ∀ fuel depth n m, N ≤ fuel → N ≤ depth → N ≤ n → 1 ≤ m → ∃ s',
    (∃ reply, turn (solverAt kinHomeKB.modules n).inSession (sentencePipeline whoOracles fuel depth (some kinHomeKB.modules) (solverAt kinHomeKB.modules n))
      typedWrite homeBuffer.inSession m whichText ⟨Grammar.new typedGrammar, ⟨0, []⟩, kinHomeKB.world⟩ = .ok s' reply) ∨
    ∃ e, turn (solverAt kinHomeKB.modules n).inSession (sentencePipeline whoOracles fuel depth (some kinHomeKB.modules) (solverAt kinHomeKB.modules n))
      typedWrite homeBuffer.inSession m whichText ⟨Grammar.new typedGrammar, ⟨0, []⟩, kinHomeKB.world⟩ = .err s' e := by
  obtain ⟨N, h⟩ := C95_returns kinHomeKB kin_heads kinHome_core (kinHome_undefined rfl rfl rfl rfl) kinHome_sizes.1 kinHome_sizes.2 kinHome_stores rfl whoOracles
    typedGrammar typed_rulesOk typed_spec typed_quest typed_nest kinValues_unify typed_returns typed_unit kinHome_rank whichText (by intro i; simp [whoOracles])
    (fuel' := 20) (depth' := 20) [] (s := ⟨Grammar.new typedGrammar, ⟨0, []⟩, kinHomeKB.world⟩) rfl rfl typed_questions.1 typed_sortable.1
  refine ⟨N, fun fuel depth n m h1 h2 h3 h4 => ?_⟩
  rcases h fuel depth n m h1 h2 h3 h4 with ⟨s', reply, _, _, h, _⟩ | ⟨s', e, _, _, h, _⟩
  · exact ⟨s', .inl ⟨reply, h⟩⟩
  · exact ⟨s', .inr ⟨e, h⟩⟩

end Ex

end Verif

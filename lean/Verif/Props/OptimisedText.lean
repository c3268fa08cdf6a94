import Verif.Props.QuantifiedText
import Verif.Props.QueryOrder
import Verif.Props.Total

/-!
# C88: entering a text with quantifiers when the query is optimised

All example systems of the repository give the semantic composer a `BasicQueryOptimizer`. C77 says what entering a text gives without it, C84
says when optimising keeps the answers to a query. Here these meet.
-/

namespace Verif

section
variable {W : Type} {ar : String → Option Nat} {tables : List (Dict (List (List Value)))} {rs : List HornRule}

/-- A query that the optimiser does not spoil: no value is hidden in another one, what comes earlier or later does not matter (`Ordered`), also
inside the parts (`FormsTidy`), and the root variables that it has are bound by it. -/
structure Orderly (q : List Form) (roots : List String) : Prop where
  simple : FormsSimple q
  ordered : Ordered q fun _ => False
  tidy : FormsTidy q fun _ => False
  bound : ∀ x ∈ roots, x ∈ formVars q → x ∈ formBinds q

theorem no_names : (fun x => Dict.has ([] : Binding) x = true) = fun _ => False := by
  funext x
  simp [Dict.has, Dict.get]

/-- What the answers to the optimised query say about the query. Any values that agree with an answer, satisfy the query if those of the
variables that are not roots are chosen well. -/
theorem optimized_answers (K : KnowledgeBase W ar tables rs) (hrr : HeadsBound rs) (hcore : ∀ p ∈ coreNames, NotDefined K.others K.world p)
    (hs : K.SmallSizes) {q : List Form} {roots : List String} (hq : FormsOk ar q (fun _ => False)) (ho : Orderly q roots)
    {w1 : W} {opt : List Value} (hopt : K.optimize q roots = .ok w1 opt) {n : Nat} {w' : W} {out : SolOut} (h : K.askAtoms n opt [] = .ok w' out) :
    w1 = K.world ∧ w' = K.world ∧ ∃ bs, out = .rows bs ∧
      (∀ b ∈ bs, (∀ x v, b.get x = some v → Plain v) ∧ (∀ x ∈ roots, x ∈ formBinds q → b.has x = true) ∧
        ∀ σ : Assignment, (∀ x, Plain (σ x)) → (∀ x v, b.get x = some v → σ x = v) →
          ∃ τ : Assignment, (∀ x, Plain (τ x)) ∧ (∀ x ∈ roots, τ x = σ x) ∧ SatAll (program tables rs) q (fun _ => False) τ) ∧
      ∀ σ : Assignment, (∀ x, Plain (σ x)) → SatAll (program tables rs) q (fun _ => False) σ → ∃ b ∈ bs, ∀ x v, b.get x = some v → σ x = v := by
  obtain ⟨e1, q1, q2, ha, hi, rfl⟩ := K.optimize_steps hcore hs ho.simple hopt
  obtain ⟨hord1, k1⟩ := ha.keeps (P := program tables rs) (ar := ar) (early_ok _) ho.ordered ho.tidy
  have k2 := hi.keeps (program tables rs) ar hord1 k1.tidy
  obtain ⟨e2, bs, e3, hsound, hcomplete, _⟩ := C71_first_order K hrr hcore (b := []) (q := q2) (by rw [no_names]; exact k2.ok (k1.ok hq))
    (fun x v hx => by simp at hx) h
  rw [no_names] at hsound hcomplete
  have hbinds : ∀ x, x ∈ formBinds q1 ↔ x ∈ formBinds q := fun x => (ha.binds x).symm
  refine ⟨e1, e2, bs, e3, ?_, ?_⟩
  · intro b hb
    obtain ⟨a1, _, a3, a4⟩ := hsound b hb
    refine ⟨a1, fun x hr hx => (a3 x).2 ((k2.roots x hr ((hbinds x).2 hx)).elim (fun h => h.elim) .inr), ?_⟩
    intro σ hp hσ
    obtain ⟨τ, t1, t2, t3⟩ := k2.back σ hp (a4 σ hp hσ)
    refine ⟨τ, t1, fun x hx => t2 x ?_, (k1.sat τ t1).2 t3⟩
    by_cases hv : x ∈ formVars q1
    · right; left
      have hv' : x ∈ formVars q := (ha.vars x).2 hv
      exact (k2.roots x hx ((hbinds x).2 (ho.bound x hx hv'))).elim (fun h => h.elim) id
    · exact .inr (.inr hv)
  · intro σ hp hS
    exact hcomplete σ hp (fun x v hx => by simp at hx) (k2.to σ hp ((k1.sat σ hp).1 hS))

/-- **C88** (sentence) Solving the optimised query of a sentence of such a grammar. If this returns, nothing is changed, and the values of the root
variables in the answers are exactly the values that the sentence is true of. -/
theorem C88_answers (K : KnowledgeBase W ar tables rs) (hrr : HeadsBound rs) (hcore : ∀ p ∈ coreNames, NotDefined K.others K.world p)
    (hs : K.SmallSizes) {R : List String} {sigs : GRule Attachment → Sig} {spec : GRule Attachment → List Value → RuleParts}
    {t : ParseTree Attachment} {g g' : Gen} {roots : List String} {c : Composed} (hne : t.children ≠ [])
    (ht : SpecTree ar (program tables rs) R sigs spec t) (hroot : RootSig (sigs t.rule)) {D : (Nat → List Value → Prop) → List Value → Prop}
    (hD : nodeMeaning (program tables rs) spec t = .phrase D) (h : composeSentence t g = .ok g' (roots, c))
    (ho : ∀ q, c.sem = .list (formValues q) → FormsOk ar q (fun _ => False) → Orderly q roots) {atoms : List Value} (hsem : c.sem = .list atoms)
    {w1 : W} {opt : List Value} (hopt : Verif.optimize K.modules atoms roots K.world = .ok w1 opt)
    {n : Nat} {w' : W} {out : SolOut} (ha : (solverAt K.modules n).solve (.list opt) [] K.world = .ok w' out) :
    w1 = K.world ∧ w' = K.world ∧ ∃ bs, out = .rows bs ∧ (∀ b ∈ bs, ∀ x ∈ flagged roots (sigs t.rule).after, b.has x = true) ∧
      (bs ≠ [] ↔ ∃ vals : List Value, vals.length = roots.length ∧ (∀ v ∈ vals, Plain v) ∧ SentenceTrue (program tables rs) spec t vals) ∧
      ∀ vals : List Value, vals.length = roots.length → (∀ v ∈ vals, Plain v) →
        ((∃ b ∈ bs, Fits b roots vals) ↔ SentenceTrue (program tables rs) spec t vals) := by
  obtain ⟨q, hq, hok, hm, hsound, hcomplete⟩ := C76_composed_iff_true (program tables rs) hne ht hroot hD h
  obtain ⟨g1, h1, _, _⟩ := composeSentence_parts h
  have hnd := nextVars_nodup h1
  rw [hq] at hsem
  cases hsem
  obtain ⟨e0, e1, bs, e2, e3, e4⟩ := optimized_answers K hrr hcore hs hok (ho q hq hok) hopt ha
  have key : ∀ vals : List Value, vals.length = roots.length → (∀ v ∈ vals, Plain v) →
      ((∃ b ∈ bs, Fits b roots vals) ↔ SentenceTrue (program tables rs) spec t vals) := by
    intro vals hlen hp
    constructor
    · rintro ⟨b, hb, hf⟩
      obtain ⟨p1, _, d1⟩ := e3 b hb
      obtain ⟨σ, s1, s2, s3⟩ := exists_assignment hnd hlen hp (completion b) (completion_plain p1)
      obtain ⟨τ, t1, t2, t3⟩ := d1 σ s1 fun x v hx => by
        by_cases hxr : x ∈ roots
        · obtain ⟨j, hj⟩ := List.getElem?_of_mem hxr
          have hv := congrArg (fun l => l[j]?) s2
          simp only [List.getElem?_map, hj, Option.map_some] at hv
          rcases hf j x (σ x) hj hv.symm with h | h
          · rw [h] at hx; cases hx
          · rw [h] at hx; cases hx; rfl
        · rw [s3 x hxr]; exact completion_agrees b x v hx
      have : roots.map τ = vals := by rw [← s2]; exact List.map_congr_left t2
      rw [← this]
      exact hsound τ t1 t3
    · intro hv
      obtain ⟨σ, s1, rfl, s3⟩ := hcomplete vals hlen hp hv
      obtain ⟨b, hb, hag⟩ := e4 σ s1 s3
      refine ⟨b, hb, fun j x v hj hv => ?_⟩
      simp only [List.getElem?_map, hj, Option.map_some, Option.some.injEq] at hv
      cases hg : b.get x with
      | none => exact .inl rfl
      | some u => exact .inr (by rw [← hv, hag x u hg])
  refine ⟨e0, e1, bs, e2, fun b hb x hx => (e3 b hb).2.1 x (flagged_subset hx) (hm x hx), ⟨?_, ?_⟩, key⟩
  · intro hb
    obtain ⟨b, l, rfl⟩ := List.exists_cons_of_ne_nil hb
    obtain ⟨p1, _, d1⟩ := e3 b (by simp)
    obtain ⟨τ, t1, _, t3⟩ := d1 _ (completion_plain p1) (completion_agrees b)
    exact ⟨roots.map τ, by simp, fun v hv => by
      obtain ⟨x, _, rfl⟩ := List.mem_map.1 hv
      exact t1 x, hsound τ t1 t3⟩
  · rintro ⟨vals, h1, h2, h3⟩ rfl
    obtain ⟨b, hb, _⟩ := (key vals h1 h2).2 h3
    simp at hb

/-- What the composer stores when it optimises (`SemanticComposer.py:47-53`); the last form is executed. -/
theorem composer_optimises {mods : List (Module W)} {atoms : List Value} {roots : List String} {w w1 : W} {forms : List (String × Value)}
    (h : composerForms (some mods) (.list atoms) roots w = .ok w1 forms) (inf : List Value) (ex : Value) :
    ∃ opt, Verif.optimize mods atoms roots w = .ok w1 opt ∧ ComposerProduct.lastIteration ⟨forms, inf, ex, roots⟩ = .list opt := by
  simp only [composerForms, optimizeForms, M.bind_eq_ok, M.pure_eq_ok] at h
  obtain ⟨w2, s1, h1, w3, s2, h2, e1, e2⟩ := h
  subst e1 e2
  refine ⟨isolate s2 roots, ?_, rfl⟩
  rw [Verif.optimize, M.bind_ok h1, M.bind_ok h2, M.pure_run]

theorem composer_optimised {mods : List (Module W)} {atoms : List Value} {roots : List String} {w w1 : W} {opt : List Value}
    (h : Verif.optimize mods atoms roots w = .ok w1 opt) :
    ∃ forms, composerForms (some mods) (.list atoms) roots w = .ok w1 forms ∧
      ∀ inf ex, ComposerProduct.lastIteration ⟨forms, inf, ex, roots⟩ = .list opt := by
  simp only [Verif.optimize, M.bind_eq_ok, M.pure_eq_ok] at h
  obtain ⟨w2, s1, h1, w3, s2, h2, e1, e2⟩ := h
  subst e1 e2
  refine ⟨[("Semantics", .list atoms), ("Names resolved", .list s1), ("Sorted by cost", .list s2), ("Isolated", .list (isolate s2 roots))], ?_,
    fun _ _ => rfl⟩
  simp only [composerForms, optimizeForms]
  rw [M.bind_ok h1, M.bind_ok h2, M.pure_run]

/-- What is known about the tree of a derivation. -/
theorem derived_facts {P : Program} {R : List String} {kinds : Str → Nat → Kind} {spec : GRule Attachment → List Value → RuleParts} {E : Oracles}
    {rules : List (GRule Attachment)} (ok : RulesOk rules) (hspec : ∀ r, Usable rules r → SpecRule ar R kinds spec r)
    (hroot : ∀ r, Usable rules r → r.ante.predicate = cRoot → ∃ s, kinds cRoot r.ante.args.length = .phrase s ∧ RootSig s) {text : Str}
    {c0 : Constituent} {d : DTree Attachment} {t : ParseTree Attachment} (hc1 : c0.predicate = cRoot) (hc2 : c0.pos = .relation)
    (hd : Derives E rules text [c0] 0 text.length [d]) (htree : TreesOf Eq [d] [t]) :
    TreesSpec ar P R kinds spec [c0] [t] ∧ t.children ≠ [] ∧ t.rule.ante.predicate = cRoot ∧ RootSig (sigOf kinds t.rule.ante) ∧
      ∃ D, nodeMeaning P spec t = .phrase D := by
  have hts : TreesSpec ar P R kinds spec [c0] [t] := derived_spec ok hspec hd [t] htree
  have hne : t.children ≠ [] := hts.inner 0 t c0 rfl rfl hc2
  obtain ⟨e1, e2, e3⟩ := equals_iff (hts.ante 0 t c0 rfl rfl)
  obtain ⟨sg, hsg, hrs⟩ : ∃ sg, kinds cRoot t.rule.ante.args.length = .phrase sg ∧ RootSig sg := by
    cases hd with
    | leaf htok _ => rcases htok.2.2 with h | h <;> rw [h.1] at hc2 <;> cases hc2
    | node hu _ _ _ =>
      cases htree with
      | node hrr _ _ =>
        subst hrr
        exact hroot _ hu (e1.trans hc1)
  have hkc : kinds c0.predicate c0.args.length = .phrase sg := by rw [hc1, ← e2]; exact hsg
  obtain ⟨D, hD⟩ := hts.phrase 0 c0 sg rfl hc2 hkc
  refine ⟨hts, hne, e1.trans hc1, ?_, D, ?_⟩
  · have : sigOf kinds t.rule.ante = sg := by simp only [sigOf, e1.trans hc1, hsg]
    rw [this]; exact hrs
  · match t, hne, hD with
    | .node cat cs form r, hne, hD =>
      have : cs.isEmpty = false := by cases cs <;> simp_all [ParseTree.children]
      simpa [nodeMeanings, this] using hD

/-- The tree that the parser gives first, if it gives any, belongs to a derivation. -/
theorem first_derivation {E : Oracles} {rules : List (GRule Attachment)} (ok : RulesOk rules) {text : Str} (hl : LowerOk E (normalizeSpace text))
    {fuel depth : Nat} {t : ParseTree Attachment} {rest : List (ParseTree Attachment)} {e : ParseError}
    (hp : (basicParse E fuel depth (Grammar.new rules) text).1 = .ok (t :: rest, e)) :
    ∃ c d, c.predicate = cRoot ∧ c.pos = .relation ∧ Derives E rules (normalizeSpace text) [c] 0 (normalizeSpace text).length [d] ∧ TreesOf Eq [d] [t] ∧
      ∀ d', WholeDerivation E rules (normalizeSpace text) d' → ∃ t', TreesOf (fun r r' => r.equals r' = true) [d'] [t'] ∧ (t' = t ∨ RankedBefore t t') := by
  simp only [basicParse] at hp
  cases hr : (parse E fuel depth (Grammar.new rules) (normalizeSpace text)).1 with
  | err e => rw [hr] at hp; simp [Out.bind] at hp
  | oof => rw [hr] at hp; simp [Out.bind] at hp
  | ok p =>
    obtain ⟨trees, e'⟩ := p
    rw [hr] at hp
    simp only [Out.bind, Out.ok.injEq, Prod.mk.injEq] at hp
    have hperm := C38_permutation trees
    have hord := C38_order trees
    rw [hp.1] at hperm hord
    obtain ⟨c0, d, hc1, hc2, hd, htree⟩ := C29_derivation E rules ok _ hl fuel depth trees e' hr t (hperm.mem_iff.1 (by simp))
    refine ⟨c0, d, hc1, hc2, hd, htree, ?_⟩
    rintro d' ⟨c', hc1', hc2', hd'⟩
    obtain ⟨t', ht', htr'⟩ := C30_complete E rules ok _ hl fuel depth trees e' hr c' hc1' hc2' d' hd'
    refine ⟨t', htr', ?_⟩
    rcases List.mem_cons.1 (hperm.mem_iff.2 ht') with e | hm
    · exact .inl e
    · exact .inr ((List.pairwise_cons.1 hord).1 t' hm)

theorem no_first {E : Oracles} {rules : List (GRule Attachment)} (ok : RulesOk rules) {text : Str} (hl : LowerOk E (normalizeSpace text))
    {fuel depth : Nat} {e : ParseError} (hp : (basicParse E fuel depth (Grammar.new rules) text).1 = .ok ([], e)) :
    ∀ d, ¬ WholeDerivation E rules (normalizeSpace text) d := by
  rintro d ⟨c, hc1, hc2, hd⟩
  simp only [basicParse] at hp
  cases hr : (parse E fuel depth (Grammar.new rules) (normalizeSpace text)).1 with
  | err e => rw [hr] at hp; simp [Out.bind] at hp
  | oof => rw [hr] at hp; simp [Out.bind] at hp
  | ok p =>
    obtain ⟨trees, e'⟩ := p
    rw [hr] at hp
    simp only [Out.bind, Out.ok.injEq, Prod.mk.injEq] at hp
    have hperm := C38_permutation trees
    rw [hp.1] at hperm
    obtain ⟨t, ht, _⟩ := C30_complete E rules ok _ hl fuel depth trees e' hr c hc1 hc2 d hd
    have := hperm.mem_iff.2 ht
    simp at this

/-- The query of the tree that the parser gives first is one that the optimiser does not spoil. -/
def OrderlyText (ar : String → Option Nat) (E : Oracles) (rules : List (GRule Attachment)) (text : Str) (gen : Gen) : Prop :=
  ∀ fuel depth t rest g roots c q, (basicParse E fuel depth (Grammar.new rules) text).1 = .ok (t :: rest, .none) →
    composeSentence t gen = .ok g (roots, c) → c.sem = .list (formValues q) → FormsOk ar q (fun _ => False) → Orderly q roots

/-- No predicate of the rows and rules has the name of a relation of the core module. -/
def NamesApart (ar : String → Option Nat) : Prop := ∀ p ∈ "$disjunction" :: coreNames, ar p = none

theorem atom_apart {ar : String → Option Nat} (hn : NamesApart ar) {p : String} {args : List Value} {B : String → Prop} (h : (Form.atom p args).Ok ar B) {g : Form}
    (hg : g.isFact = false ∨ g.pred = "equals") (hv : (Form.atom p args).toValue = g.toValue) : False := by
  obtain ⟨as, e⟩ := toValue_pred g
  rw [e, Form.toValue] at hv
  simp only [Value.tuple.injEq, List.cons.injEq, Value.str.injEq] at hv
  rw [Form.Ok] at h
  have hp : p ∈ "$disjunction" :: coreNames := by
    rw [hv.1]
    rcases hg with hg | hg
    · cases he : g.isEither with
      | false => exact List.mem_cons_of_mem _ (pred_core g hg he)
      | true =>
        have : g.pred = "$disjunction" := by cases g <;> simp [Form.isEither] at he; rfl
        rw [this]; exact List.mem_cons_self
    · rw [hg]; simp [coreNames]
  rw [hn p hp] at h
  cases h.1

mutual
/-- A query can be read in one way. -/
theorem Form.read {ar : String → Option Nat} (hn : NamesApart ar) : ∀ (f g : Form) {B B' : String → Prop}, f.Ok ar B → g.Ok ar B' → f.toValue = g.toValue → f = g
  | .atom p as, g, B, B', h, h', e => by
    cases g with
    | atom q bs => simp only [Form.toValue, Value.tuple.injEq, List.cons.injEq, Value.str.injEq] at e; rw [e.1, e.2]
    | equals a c => exact (atom_apart hn h (.inr rfl) e).elim
    | _ => exact (atom_apart hn h (.inl rfl) e).elim
  | .neg q, g, B, B', h, h', e => by
    cases g <;> first | (exact (atom_apart hn h' (.inl rfl) e.symm).elim) | (simp [Form.toValue] at e; done) | skip
    simp only [Form.Ok] at h h'
    simp only [Form.toValue, Value.tuple.injEq, List.cons.injEq, Value.list.injEq, and_true, true_and] at e
    rw [forms_read hn q _ h h' e]
  | .thereIsNo q, g, B, B', h, h', e => by
    cases g <;> first | (exact (atom_apart hn h' (.inl rfl) e.symm).elim) | (simp [Form.toValue] at e; done) | skip
    simp only [Form.Ok] at h h'
    simp only [Form.toValue, Value.tuple.injEq, List.cons.injEq, Value.list.injEq, and_true, true_and] at e
    rw [forms_read hn q _ h h' e]
  | .thereIs q, g, B, B', h, h', e => by
    cases g <;> first | (exact (atom_apart hn h' (.inl rfl) e.symm).elim) | (simp [Form.toValue] at e; done) | skip
    simp only [Form.Ok] at h h'
    simp only [Form.toValue, Value.tuple.injEq, List.cons.injEq, Value.list.injEq, and_true, true_and] at e
    rw [forms_read hn q _ h h' e]
  | .exactly q n, g, B, B', h, h', e => by
    cases g <;> first | (exact (atom_apart hn h' (.inl rfl) e.symm).elim) | (simp [Form.toValue] at e; done) | skip
    simp only [Form.Ok] at h h'
    simp only [Form.toValue, Value.tuple.injEq, List.cons.injEq, Value.list.injEq, and_true, true_and] at e
    rw [forms_read hn q _ h.1 h'.1 e.1, e.2]
  | .moreThan q n, g, B, B', h, h', e => by
    cases g <;> first | (exact (atom_apart hn h' (.inl rfl) e.symm).elim) | (simp [Form.toValue] at e; done) | skip
    simp only [Form.Ok] at h h'
    simp only [Form.toValue, Value.tuple.injEq, List.cons.injEq, Value.list.injEq, and_true, true_and] at e
    rw [forms_read hn q _ h.1 h'.1 e.1, e.2]
  | .fewerThan q n, g, B, B', h, h', e => by
    cases g <;> first | (exact (atom_apart hn h' (.inl rfl) e.symm).elim) | (simp [Form.toValue] at e; done) | skip
    simp only [Form.Ok] at h h'
    simp only [Form.toValue, Value.tuple.injEq, List.cons.injEq, Value.list.injEq, and_true, true_and] at e
    rw [forms_read hn q _ h.1 h'.1 e.1, e.2]
  | .all x r q, g, B, B', h, h', e => by
    cases g <;> first | (exact (atom_apart hn h' (.inl rfl) e.symm).elim) | (simp [Form.toValue] at e; done) | skip
    simp only [Form.Ok] at h h'
    simp only [Form.toValue, Value.tuple.injEq, List.cons.injEq, Value.list.injEq, Value.var.injEq, and_true, true_and] at e
    rw [e.1, forms_read hn r _ h.2.2.1 h'.2.2.1 e.2.1, forms_read hn q _ h.2.2.2 h'.2.2.2 e.2.2]
  | .count x q, g, B, B', h, h', e => by
    cases g <;> first | (exact (atom_apart hn h' (.inl rfl) e.symm).elim) | (simp [Form.toValue] at e; done) | skip
    simp only [Form.Ok] at h h'
    simp only [Form.toValue, Value.tuple.injEq, List.cons.injEq, Value.list.injEq, Value.var.injEq, and_true, true_and] at e
    rw [e.1, forms_read hn q _ h.2 h'.2 e.2]
  | .either qs, g, B, B', h, h', e => by
    cases g <;> first | (exact (atom_apart hn h' (.inl rfl) e.symm).elim) | (simp [Form.toValue] at e; done) | skip
    simp only [Form.Ok] at h h'
    simp only [Form.toValue, Value.tuple.injEq, List.cons.injEq, Value.list.injEq, and_true, true_and] at e
    rw [alts_read hn qs _ h.1 h'.1 e]
  | .equals a c, g, B, B', h, h', e => by
    cases g <;> first | (exact (atom_apart hn h' (.inr rfl) e.symm).elim) | (simp [Form.toValue] at e; done) | skip
    simp only [Form.toValue, Value.tuple.injEq, List.cons.injEq, and_true, true_and] at e
    rw [e.1, e.2]
  | .greater a c, g, B, B', h, h', e => by
    cases g <;> first | (exact (atom_apart hn h' (.inl rfl) e.symm).elim) | (simp [Form.toValue] at e; done) | skip
    simp only [Form.toValue, Value.tuple.injEq, List.cons.injEq, and_true, true_and] at e
    rw [e.1, e.2]
  | .less a c, g, B, B', h, h', e => by
    cases g <;> first | (exact (atom_apart hn h' (.inl rfl) e.symm).elim) | (simp [Form.toValue] at e; done) | skip
    simp only [Form.toValue, Value.tuple.injEq, List.cons.injEq, and_true, true_and] at e
    rw [e.1, e.2]
  | .assign x v, g, B, B', h, h', e => by
    cases g <;> first | (exact (atom_apart hn h' (.inl rfl) e.symm).elim) | (simp [Form.toValue] at e; done) | skip
    simp only [Form.toValue, Value.tuple.injEq, List.cons.injEq, Value.var.injEq, and_true, true_and] at e
    rw [e.1, e.2]
  | .times a c x, g, B, B', h, h', e => by
    cases g <;> first | (exact (atom_apart hn h' (.inl rfl) e.symm).elim) | (simp [Form.toValue] at e; done) | skip
    simp only [Form.toValue, Value.tuple.injEq, List.cons.injEq, Value.var.injEq, and_true, true_and] at e
    rw [e.1, e.2.1, e.2.2]
theorem forms_read {ar : String → Option Nat} (hn : NamesApart ar) : ∀ (q q' : List Form) {B B' : String → Prop}, FormsOk ar q B → FormsOk ar q' B' →
    formValues q = formValues q' → q = q'
  | [], q', _, _, _, _, e => by cases q' <;> simp [formValues] at e; rfl
  | f :: fs, q', _, _, h, h', e => by
    cases q' with
    | nil => simp [formValues] at e
    | cons g gs =>
      simp only [FormsOk] at h h'
      simp only [formValues, List.cons.injEq] at e
      rw [Form.read hn f g h.1 h'.1 e.1, forms_read hn fs gs h.2 h'.2 e.2]
theorem alts_read {ar : String → Option Nat} (hn : NamesApart ar) : ∀ (qs qs' : List (List Form)) {B B' : String → Prop}, AltsOk ar qs B → AltsOk ar qs' B' →
    altValues qs = altValues qs' → qs = qs'
  | [], q', _, _, _, _, e => by cases q' <;> simp [altValues] at e; rfl
  | f :: fs, q', _, _, h, h', e => by
    cases q' with
    | nil => simp [altValues] at e
    | cons g gs =>
      simp only [AltsOk] at h h'
      simp only [altValues, List.cons.injEq, Value.list.injEq] at e
      rw [forms_read hn f g h.1 h'.1 e.1, alts_read hn fs gs h.2 h'.2 e.2]
end

/-- The root variables and the meaning of the tree that the parser gives first. -/
def firstMeaning (E : Oracles) (rules : List (GRule Attachment)) (fuel depth : Nat) (text : Str) (gen : Gen) : Option (List String × Value) :=
  match (basicParse E fuel depth (Grammar.new rules) text).1 with
  | .ok (t :: _, _) => match composeSentence t gen with
    | .ok _ (roots, c) => some (roots, c.sem)
    | _ => none
  | _ => none

theorem basicParse_mono {E : Oracles} {rules : List (GRule Attachment)} {fuel depth fuel' depth' : Nat} (h1 : fuel ≤ fuel') (h2 : depth ≤ depth') {text : Str}
    {p : List (ParseTree Attachment)} {x : ParseTree Attachment} {e : ParseError}
    (h : (basicParse E fuel depth (Grammar.new rules) text).1 = .ok (x :: p, e)) :
    (basicParse E fuel' depth' (Grammar.new rules) text).1 = .ok (x :: p, e) := by
  simp only [basicParse, parse, parseWith] at h ⊢
  cases hc : buildChart E fuel (addStartRules E (Grammar.new rules)) (normalizeSpace text) with
  | oof => rw [hc] at h; simp [Out.bind] at h
  | err e => rw [hc] at h; simp [Out.bind] at h
  | ok chart =>
    rw [hc] at h
    rw [buildChart_mono h1 hc]
    simp only [Out.bind] at h ⊢
    cases hr : extractRoots E depth chart (normalizeSpace text).length with
    | oof => rw [hr] at h; simp at h
    | err e => rw [hr] at h; simp at h
    | ok roots =>
      rw [hr] at h
      rw [extractRoots_mono h2 hr]
      exact h

/-- It is enough to look at the query for one number of steps. -/
theorem orderlyText_of {ar : String → Option Nat} (hn : NamesApart ar) {E : Oracles} {rules : List (GRule Attachment)} {text : Str} {gen : Gen} {fuel depth : Nat}
    {roots : List String} {q : List Form} (hf : firstMeaning E rules fuel depth text gen = some (roots, .list (formValues q)))
    (hq : FormsOk ar q (fun _ => False)) (ho : Orderly q roots) : OrderlyText ar E rules text gen := by
  intro fuel' depth' t rest g roots' c q' hp hc hs hok
  unfold firstMeaning at hf
  split at hf
  · rename_i t0 rest0 e0 hp0
    have a1 := basicParse_mono (Nat.le_max_left fuel fuel') (Nat.le_max_left depth depth') hp0
    have a2 := basicParse_mono (Nat.le_max_right fuel fuel') (Nat.le_max_right depth depth') hp
    rw [a1] at a2
    cases a2
    rw [hc] at hf
    simp only [Option.some.injEq, Prod.mk.injEq] at hf
    obtain ⟨rfl, e⟩ := hf
    rw [hs, Value.list.injEq] at e
    rw [forms_read hn q' q hok hq e]
    exact ho
  · cases hf

/-- **C88** Entering a text when the query is optimised, in a session in which texts were entered before, over stored rows and rules, with a grammar
whose rules build meanings from atoms, comparisons, negation, numerals, `all` and templates. The query of the text is one that the optimiser does not
spoil. If this returns, there are two cases. Either there is no result, and the text has no derivation. Or there is a derivation of the text such that
its tree is first in rank, the result is a list of answers, the world is as it was, and the values of the root variables in the answers are exactly the
values that the sentence is true of. -/
theorem C88_text_to_answers (K : KnowledgeBase W ar tables rs) (hrr : HeadsBound rs) (hcore : ∀ p ∈ coreNames, NotDefined K.others K.world p)
    (hs : K.SmallSizes) {R : List String} {kinds : Str → Nat → Kind} {spec : GRule Attachment → List Value → RuleParts}
    (E : Oracles) (rules : List (GRule Attachment)) (ok : RulesOk rules) (hspec : ∀ r, Usable rules r → SpecRule ar R kinds spec r)
    (hroot : ∀ r, Usable rules r → r.ante.predicate = cRoot → ∃ s, kinds cRoot r.ante.args.length = .phrase s ∧ RootSig s)
    (text : Str) (hl : LowerOk E (normalizeSpace text)) (fuel depth n : Nat)
    {fuel' depth' : Nat} (texts : List Str) {s : Session W} (hg : s.grammar = parseHistory E fuel' depth' (Grammar.new rules) texts)
    (hw : s.world = K.world) (ho : OrderlyText ar E rules text s.gen)
    {st : Request (Product (ParseTree Attachment)) × Session W} {res : Option (Product (ParseTree Attachment))}
    (h : enter (solverAt K.modules n).inSession (sentencePipeline E fuel depth (some K.modules) (solverAt K.modules n)) (Request.new text, s) = .ok st res) :
    st.2.grammar = parseHistory E fuel' depth' (Grammar.new rules) (texts ++ [normalizeSpace text]) ∧
    ((res = none ∧ ∀ d, ¬ WholeDerivation E rules (normalizeSpace text) d) ∨
    ∃ t d bs, WholeDerivation E rules (normalizeSpace text) d ∧ TreesOf Eq [d] [t] ∧
      (∀ d', WholeDerivation E rules (normalizeSpace text) d' → ∃ t', TreesOf (fun r r' => r.equals r' = true) [d'] [t'] ∧
        (t' = t ∨ RankedBefore t t')) ∧
      res = some (.executed (.rows bs)) ∧ st.2.world = K.world ∧
      (bs ≠ [] ↔ ∃ vals : List Value, vals.length = t.rule.ante.args.length ∧ (∀ v ∈ vals, Plain v) ∧
        SentenceTrue (program tables rs) spec t vals) ∧
      ∃ product : ComposerProduct, st.1.current 1 = some (.composed product) ∧ ∃ roots, roots = product.returnVariables ∧
        roots = (List.range t.rule.ante.args.length).map (fun j => genName (s.gen.number + j + 1)) ∧
        (∀ b ∈ bs, ∀ x ∈ flagged roots (sigOf kinds t.rule.ante).after, b.has x = true) ∧
        ∀ vals : List Value, vals.length = roots.length → (∀ v ∈ vals, Plain v) →
        ((∃ b ∈ bs, Fits b roots vals) ↔ SentenceTrue (program tables rs) spec t vals)) := by
  obtain ⟨hgr, h⟩ := enter_sentence h
  refine ⟨?_, ?_⟩
  · rw [hgr, hg, parseHistory, parseHistory, List.foldl_append]; rfl
  rw [hg, C33_no_memory_block] at h
  rcases h with ⟨e, hp, rfl, _⟩ | ⟨t, rest, g, roots, c, w1, w2, w3, forms, o, out, hp, hcomp, hforms, hwr, hexec, hsolve, _, hcur, rfl⟩
  · exact .inl ⟨rfl, no_first ok hl hp⟩
  · right
    obtain ⟨c0, d, hc1, hc2, hd, htree, hrank⟩ := first_derivation ok hl hp
    obtain ⟨hts, hne, _, hrs, D, hD⟩ := derived_facts (P := program tables rs) ok hspec hroot hc1 hc2 hd htree
    obtain ⟨g1, h1, h2, _⟩ := composeSentence_parts hcomp
    obtain ⟨i1, i2⟩ := compose_silent _ _ _ _ _ hne hts.silent.1 h2
    obtain ⟨q, hq, hok, _⟩ := C76_composed_iff_true (R := R) (sigs := fun r => sigOf kinds r.ante) (program tables rs) hne hts.good.1 hrs hD hcomp
    rw [i1] at hwr
    rw [i2] at hexec
    simp only [writeAll, M.pure_eq_ok] at hwr
    obtain ⟨rfl, _⟩ := hwr
    have hw3 : w1 = w3 := by
      cases n with
      | zero => cases hexec
      | succ n =>
        have : (solverAt K.modules (n + 1)).solve (.list []) [] w1 = .ok w1 (.rows [[]]) := rfl
        rw [this] at hexec
        cases hexec; rfl
    subst hw3
    rw [hq, hw] at hforms
    obtain ⟨opt, hopt, hlast⟩ := composer_optimises hforms c.inferences (.list c.executable)
    rw [hlast] at hsolve
    obtain ⟨rfl, _⟩ := K.optimize_steps hcore hs (ho _ _ _ _ _ _ _ q hp hcomp hq hok).simple hopt
    obtain ⟨_, hw2, bs, rfl, hb, hyn, hans⟩ := C88_answers (R := R) (sigs := fun r => sigOf kinds r.ante) K hrr hcore hs hne hts.good.1 hrs hD hcomp
      (fun q => ho _ _ _ _ _ _ _ q hp hcomp) hq hopt hsolve
    obtain ⟨_, a2, a3⟩ := nextVars_roots h1
    refine ⟨t, d, bs, ⟨c0, hc1, hc2, hd⟩, htree, hrank, rfl, hw2, by rw [hyn, a2], _, hcur, roots, rfl, ?_, hb, hans⟩
    apply List.ext_getElem?
    intro j
    by_cases hj : j < roots.length
    · rw [List.getElem?_eq_getElem hj, a3 j _ (List.getElem?_eq_getElem hj)]
      simp [← a2, hj]
    · rw [List.getElem?_eq_none (by omega), List.getElem?_eq_none (by simp; omega)]

/-- **C88** (returning) With enough steps and depth, over rules that do not go in circles, entering such a text gives the right answers, or raises the
exception that the optimised query raises. The optimiser does not raise. -/
theorem C88_returns (K : KnowledgeBase W ar tables rs) (hrr : HeadsBound rs) (hcore : ∀ p ∈ coreNames, NotDefined K.others K.world p)
    (hdis : NotDefined K.others K.world "$disjunction") (hs : K.SmallSizes) (hsz : K.ArgumentSizes)
    {R : List String} {kinds : Str → Nat → Kind} {spec : GRule Attachment → List Value → RuleParts}
    {V : Str → Nat → Value → Prop} (hV : ∀ p k v d, V p k v → V p k (unify d v))
    (E : Oracles) (rules : List (GRule Attachment)) (ok : RulesOk rules) (hspec : ∀ r, Usable rules r → SpecRule ar R kinds spec r)
    (hroot : ∀ r, Usable rules r → r.ante.predicate = cRoot → ∃ s, kinds cRoot r.ante.args.length = .phrase s ∧ RootSig s)
    (hret : ∀ r, Usable rules r → ReturnsRule V r) (wf : WellFounded (UnitStep rules))
    {rank : String → Nat} (hrank : Descends (program tables rs) rank)
    (text : Str) (hl : LowerOk E (normalizeSpace text))
    {fuel' depth' : Nat} (texts : List Str) {s : Session W} (hg : s.grammar = parseHistory E fuel' depth' (Grammar.new rules) texts)
    (hw : s.world = K.world) (ho : OrderlyText ar E rules text s.gen) (hd : ∃ d, WholeDerivation E rules (normalizeSpace text) d) :
    ∃ N, ∀ fuel depth n, N ≤ fuel → N ≤ depth → N ≤ n → ∃ st,
      (∃ t d bs, enter (solverAt K.modules n).inSession (sentencePipeline E fuel depth (some K.modules) (solverAt K.modules n)) (Request.new text, s) =
          .ok st (some (.executed (.rows bs))) ∧
        WholeDerivation E rules (normalizeSpace text) d ∧ TreesOf Eq [d] [t] ∧
        (∀ d', WholeDerivation E rules (normalizeSpace text) d' → ∃ t', TreesOf (fun r r' => r.equals r' = true) [d'] [t'] ∧
          (t' = t ∨ RankedBefore t t')) ∧
        st.2.world = K.world ∧ st.2.grammar = parseHistory E fuel' depth' (Grammar.new rules) (texts ++ [normalizeSpace text]) ∧
        (bs ≠ [] ↔ ∃ vals : List Value, vals.length = t.rule.ante.args.length ∧ (∀ v ∈ vals, Plain v) ∧
          SentenceTrue (program tables rs) spec t vals) ∧
        ∀ vals : List Value, vals.length = t.rule.ante.args.length → (∀ v ∈ vals, Plain v) →
          ((∃ b ∈ bs, Fits b ((List.range t.rule.ante.args.length).map fun j => genName (s.gen.number + j + 1)) vals) ↔
            SentenceTrue (program tables rs) spec t vals)) ∨
      ∃ e t d g roots c q opt w', enter (solverAt K.modules n).inSession (sentencePipeline E fuel depth (some K.modules) (solverAt K.modules n))
          (Request.new text, s) = .err st e ∧ WholeDerivation E rules (normalizeSpace text) d ∧ TreesOf Eq [d] [t] ∧
        composeSentence t s.gen = .ok g (roots, c) ∧ c.sem = .list (formValues q) ∧ K.optimize q roots = .ok K.world opt ∧
        K.askAtoms n opt [] = .err w' e := by
  obtain ⟨N, t, rest, c0, d, hp, hc1, hc2, hd, htree⟩ := first_tree ok wf hl hd
  obtain ⟨hts, hne, _, hrs, D, hD⟩ := derived_facts (P := program tables rs) ok hspec hroot hc1 hc2 hd htree
  obtain ⟨g, ⟨roots, m⟩, hcomp, hval⟩ := sentence_composes hV ok hret (fun r hr => ⟨(hspec r hr).noExec, (hspec r hr).noDialog⟩) hc2 hd htree hne s.gen
  obtain ⟨g1, h1, h2, _⟩ := composeSentence_parts hcomp
  obtain ⟨i1, i2⟩ := compose_silent _ _ _ _ _ hne hts.silent.1 h2
  obtain ⟨q, hq, hok, _⟩ := C76_composed_iff_true (R := R) (sigs := fun r => sigOf kinds r.ante) (program tables rs) hne hts.good.1 hrs hD hcomp
  have hor := ho _ _ _ _ _ _ _ q (hp N N (Nat.le_refl _) (Nat.le_refl _)) hcomp hq hok
  obtain ⟨opt, hopt⟩ := C84_optimize_returns K hcore hdis hsz hok hor.simple roots
  obtain ⟨_, q1, q2, ha, hi, e⟩ := K.optimize_steps hcore hs hor.simple hopt
  subst e
  obtain ⟨hord1, k1⟩ := ha.keeps (P := program tables rs) (ar := ar) (early_ok _) hor.ordered hor.tidy
  have hok2 := (hi.keeps (program tables rs) ar hord1 k1.tidy).ok (k1.ok hok)
  obtain ⟨forms, hforms, hlast⟩ := composer_optimised hopt
  refine ⟨max N (formsDepth rank q2 + 1), fun fuel depth n hf hdp hn => ?_⟩
  have hx : (solverAt K.modules n).solve (.list []) [] K.world = .ok K.world (.rows [[]]) := by
    obtain ⟨n, rfl⟩ : ∃ k, n = k + 1 := ⟨n - 1, by omega⟩
    rfl
  have hp' : (basicParse E fuel depth s.grammar text).1 = .ok (t :: rest, .none) := by
    rw [hg, C33_no_memory_block]
    exact hp fuel depth (by omega) (by omega)
  obtain ⟨o1, o2⟩ := enter_query (optimizer := some K.modules) (api := solverAt K.modules n) hp' hcomp i1 i2
    (forms := forms) (w1 := K.world) (by rw [hw, hq]; exact hforms) hx
  rw [hlast] at o1 o2
  rcases C71_returns K hrr hcore hrank (n := n) (q := q2) (b := []) (by rw [no_names]; exact hok2) (fun x v hx => by simp at hx) (by omega) with ⟨bs, h⟩ | ⟨w', e, h⟩
  · obtain ⟨st, hst⟩ := o1 _ _ h
    obtain ⟨k1, k2⟩ := C88_text_to_answers K hrr hcore hs E rules ok hspec hroot text hl fuel depth n texts hg hw ho hst
    rcases k2 with ⟨k, _⟩ | ⟨t1, d1, bs, k2, k3, k4, k5, k6, k11, product, k7, roots', k8, k9, _, k10⟩
    · cases k
    · rw [k5] at hst
      refine ⟨st, .inl ⟨t1, d1, bs, hst, k2, k3, k4, k6, k1, k11, fun vals hlen hpl => ?_⟩⟩
      rw [← k9]
      exact k10 vals (by rw [k9]; simpa using hlen) hpl
  · obtain ⟨st, hst⟩ := o2 _ _ h
    exact ⟨st, .inr ⟨e, t, d, g, roots, m, q, _, w', hst, ⟨c0, hc1, hc2, hd⟩, htree, hcomp, hq, hopt, h⟩⟩

end

/-! ### An example: questions about parents -/

namespace Ex

/-- The meaning of a question: that of its noun, then that of its verb phrase. -/
def joinBoth : List Value → Except Err Value
  | [.list nbar, .list vp] => .ok (.list (nbar ++ vp))
  | _ => .error .typeError

/-- `s(E1) -> 'which' nbar(E1) vp(E1)`, as in `tests/integration/chat80/read_grammar.py`. -/
def ruleWhich := kinRule (rel cRoot [cE1]) [exW ['w', 'h', 'i', 'c', 'h'], exSep, rel cNbar [cE1], exSep, rel cVp [cE1]] joinBoth

def whichGrammar : List (GRule Attachment) := ruleWhich :: kinGrammar

/-- The parts. -/
def whichSpec (r : GRule Attachment) (ws : List Value) : RuleParts :=
  if r.cons = ruleWhich.cons then .parts [] [.app 2 [], .app 4 []] else kinSpec r ws

theorem spec_other {r : GRule Attachment} (h : SpecRule kinAr kinSlots kinKinds kinSpec r) (hr : r.cons ≠ ruleWhich.cons) :
    SpecRule kinAr kinSlots kinKinds whichSpec r where
  names := h.names
  nodup := h.nodup
  value := fun ws v hv hs => h.value ws v hv (by simpa [whichSpec, hr] using hs)
  parts := fun ws ns e hv hs => h.parts ws ns e hv (by simpa [whichSpec, hr] using hs)
  noExec := h.noExec
  noDialog := h.noDialog

theorem spec_which : SpecRule kinAr kinSlots kinKinds whichSpec ruleWhich where
  names := by decide +kernel
  nodup := by decide +kernel
  value := fun ws v _ h => by cases h
  parts := fun ws ns e _ h => by
    cases h
    refine ⟨⟨by decide +kernel, rfl, by decide +kernel, by decide +kernel,
      by decide +kernel, by decide +kernel, kidsCheck_ok (by decide +kernel), by decide +kernel, by decide +kernel⟩, ⟨_, rfl⟩, ?_⟩
    intro f hf vs us s hl he hfs
    cases hf
    match vs, hl with
    | [v0, v1, v2, v3, v4], _ =>
      change joinBoth [v2, v4] = _ at hfs
      cases v2 <;> try (cases hfs; done)
      cases v4 <;> try (cases hfs; done)
      cases hfs
      simp only [evalAll, evalPart, evalMany, List.getD, List.getElem?_cons_zero, List.getElem?_cons_succ, Option.getD_some, atomsOf, List.isEmpty_nil,
        if_true, List.append_nil, Except.ok.injEq] at he
      rw [← he]; rfl
  noExec := rfl
  noDialog := fun _ => rfl

theorem which_usable {r : GRule Attachment} (h : Usable whichGrammar r) : r = ruleWhich ∨ Usable kinGrammar r := by
  obtain ⟨r0, h0, hv⟩ := h
  rcases List.mem_cons.1 h0 with rfl | h0
  · left
    have key : ruleVariants ruleWhich = [ruleWhich] := C36_no_optional _ (by decide)
    rwa [key, List.mem_singleton] at hv
  · exact .inr ⟨r0, h0, hv⟩

theorem which_spec (r : GRule Attachment) (h : Usable whichGrammar r) : SpecRule kinAr kinSlots kinKinds whichSpec r := by
  rcases which_usable h with rfl | h
  · exact spec_which
  · refine spec_other (kin_spec r h) ?_
    have : ∀ r ∈ kinGrammar, r.cons ≠ ruleWhich.cons := by decide +kernel
    exact this r (kin_usable h)

theorem which_rulesOk : RulesOk whichGrammar := by
  constructor <;> decide +kernel

theorem which_root (r : GRule Attachment) (_ : Usable whichGrammar r) (_ : r.ante.predicate = cRoot) :
    ∃ s, kinKinds cRoot r.ante.args.length = .phrase s ∧ RootSig s := ⟨_, rfl, rfl, by decide⟩

theorem kin_unsized {m : Module InfState} (hm : m ∈ kinKB.others) {p : String} {r : Relation InfState} (h : m.relations kinKB.world p = some r) :
    r.relationSize = none := by
  simp only [KnowledgeBase.others, kinKB, tableKB, List.mem_append, List.mem_cons, List.mem_map, List.not_mem_nil, or_false] at hm
  rcases hm with ⟨db, rfl, rfl⟩ | rfl | ⟨_, hf, _⟩
  · simp only [tableModule] at h
    cases e : kinTables.get p with
    | none => rw [e] at h; cases h
    | some rows => rw [e] at h; cases h; rfl
  · simp only [inferenceModule] at h
    cases e : ((Lens.id InfState).get kinKB.world).relations.get p with
    | none => rw [e] at h; cases h
    | some f => rw [e] at h; cases h; rfl
  · exact hf.elim

theorem kin_sizes : kinKB.SmallSizes ∧ kinKB.ArgumentSizes :=
  ⟨fun m hm p r h s hs => (by rw [kin_unsized hm h] at hs; cases hs), fun m hm p r h => .inl (kin_unsized hm h)⟩

/-- `which parent has two children` -/
def whichText : Str := ['w', 'h', 'i', 'c', 'h', ' ', 'p', 'a', 'r', 'e', 'n', 't', ' ', 'h', 'a', 's', ' ', 't', 'w', 'o', ' ', 'c', 'h', 'i', 'l', 'd', 'r', 'e', 'n']

def whichTree : ParseTree Attachment := .node cRoot [leafTree ['w', 'h', 'i', 'c', 'h'], leafTree [' '], parentTree, leafTree [' '], haveTree] [] ruleWhich

/-- The query of the question. -/
def whichQuery : List Form :=
  [.atom "parent" [.var "$1"], .exactly [.atom "child" [.var "$2"], .atom "have" [.var "$1", .var "$2"]] (.num 2)]

theorem kin_apart : NamesApart kinAr := by
  unfold NamesApart
  decide +kernel

theorem whichQuery_ok : FormsOk kinAr whichQuery (fun _ => False) := by
  simp [whichQuery, FormsOk, Form.Ok, kinAr, ArgsOk, Value.isVar, Given, Plain, legal]

theorem whichQuery_orderly : Orderly whichQuery ["$1"] where
  simple := by simp [whichQuery, FormsSimple, Form.Simple, Simple]
  ordered := by apply ordered_of_index; decide +kernel
  tidy := by
    simp only [whichQuery, FormsTidy, Form.Tidy, true_and, and_true]
    apply ordered_of_index
    intro i
    match i with
    | ⟨0, _⟩ => intro h; cases h
    | ⟨1, _⟩ => intro h; cases h
  bound := by decide +kernel

theorem which_orderly : OrderlyText kinAr whoOracles whichGrammar whichText ⟨0, []⟩ :=
  orderlyText_of kin_apart (fuel := 200) (depth := 20) (roots := ["$1"]) (q := whichQuery) (by decide +kernel) whichQuery_ok whichQuery_orderly

theorem which_runs : answersOf (enter (solverAt kinKB.modules 12).inSession (sentencePipeline whoOracles 200 20 (some kinKB.modules)
      (solverAt kinKB.modules 12)) (Request.new whichText, ⟨Grammar.new whichGrammar, ⟨0, []⟩, kinKB.world⟩)) =
    some [[("$1", .str "mary")], [("$1", .str "bob")]] := by decide +kernel

/-- **C88** applies: the sentence is true of mary. -/
theorem which_true : ∃ t d, WholeDerivation whoOracles whichGrammar (normalizeSpace whichText) d ∧ TreesOf Eq [d] [t] ∧
    t.rule.ante.args.length = 1 ∧ SentenceTrue (program [kinTables] kinRules) whichSpec t [.str "mary"] := by
  obtain ⟨st, h⟩ := answersOf_some which_runs
  obtain ⟨_, h⟩ := C88_text_to_answers kinKB kin_heads kin_core kin_sizes.1 whoOracles whichGrammar which_rulesOk which_spec which_root whichText
    (by intro i; simp [whoOracles]) 200 20 12 (fuel' := 20) (depth' := 20) [] rfl rfl which_orderly h
  rcases h with ⟨h, _⟩ | ⟨t, d, bs, h1, h2, _, h4, _, h5, _, _, roots, _, e, _, h6⟩
  · cases h
  · cases h4
    have hlen : t.rule.ante.args.length = 1 := by
      obtain ⟨c, hc1, hc2, hd⟩ := h1
      cases hd with
      | leaf htok _ => rcases htok.2.2 with h | h <;> rw [h.1] at hc2 <;> cases hc2
      | node hu hq _ _ =>
        cases h2 with
        | node hrr _ _ =>
          subst hrr
          have key : ∀ r, Usable whichGrammar r → r.ante.predicate = cRoot → r.ante.args.length = 1 := by
            intro r hr
            have : ∀ r ∈ whichGrammar, r.ante.predicate = cRoot → r.ante.args.length = 1 := by decide +kernel
            rcases which_usable hr with rfl | hr
            · exact this _ (by simp [whichGrammar])
            · exact this r (List.mem_cons_of_mem _ (kin_usable hr))
          exact key _ hu ((equals_iff hq).1.trans hc1)
    refine ⟨t, d, h1, h2, hlen, ?_⟩
    rw [hlen] at e
    have hr : roots = ["$1"] := by rw [e]; decide +kernel
    subst hr
    refine (h6 [.str "mary"] rfl (by simp [Plain, legal, Value.isVar])).1 ⟨[("$1", .str "mary")], by simp, fun j x v hx hv => ?_⟩
    match j with
    | 0 => simp at hx hv; subst hx hv; exact .inr rfl
    | j + 1 => simp at hx

theorem which_returns (r : GRule Attachment) (h : Usable whichGrammar r) : ReturnsRule kinValues r := by
  rcases which_usable h with rfl | h
  · refine ⟨joinBoth, rfl, fun vs hvs => ?_⟩
    obtain ⟨_, _, rfl, ⟨nbar, rfl, h1⟩, _, _, rfl, ⟨vp, rfl, h2⟩, rfl⟩ : ∃ v us, vs = v :: us ∧ IsAtoms v ∧ ∃ w us', us = w :: us' ∧ IsAtoms w ∧ us' = [] := hvs
    have h3 : ∀ a ∈ nbar ++ vp, ∃ xs, a = .tuple xs := fun a ha => (List.mem_append.1 ha).elim (h1 a) (h2 a)
    exact ⟨_, rfl, ⟨_, rfl, h3⟩, fun _ e => by cases e; exact h3⟩
  · exact kin_returns r h

theorem which_unit : WellFounded (UnitStep whichGrammar) := by
  refine unit_wf (fun x => if x.2.2 = .relation then (if x.1 = cNbar ∨ x.1 = cQdet then 2 else 1) else 0) ?_
  have h : ∀ r ∈ whichGrammar, ∀ v ∈ ruleVariants r, v.cons.all fun c => v.cons.length ≠ 1 ∨
      (if c.syn.2.2 = .relation then (if c.syn.1 = cNbar ∨ c.syn.1 = cQdet then 2 else 1) else 0) <
        (if v.ante.syn.2.2 = .relation then (if v.ante.syn.1 = cNbar ∨ v.ante.syn.1 = cQdet then 2 else 1) else 0) := by decide +kernel
  intro r hr v hv c hc
  have := h r hr v hv
  rw [hc] at this
  simpa using this

/-- **C88** (returning) applies. -/
example : ∃ N, ∀ fuel depth n, N ≤ fuel → N ≤ depth → N ≤ n → ∃ st,
    (∃ bs, enter (solverAt kinKB.modules n).inSession (sentencePipeline whoOracles fuel depth (some kinKB.modules) (solverAt kinKB.modules n))
      (Request.new whichText, ⟨Grammar.new whichGrammar, ⟨0, []⟩, kinKB.world⟩) = .ok st (some (.executed (.rows bs)))) ∨
    ∃ e, enter (solverAt kinKB.modules n).inSession (sentencePipeline whoOracles fuel depth (some kinKB.modules) (solverAt kinKB.modules n))
      (Request.new whichText, ⟨Grammar.new whichGrammar, ⟨0, []⟩, kinKB.world⟩) = .err st e := by
  obtain ⟨_, d, hd, _⟩ := which_true
  obtain ⟨N, h⟩ := C88_returns kinKB kin_heads kin_core (by
      intro m hm
      simp only [KnowledgeBase.others, kinKB, tableKB, List.mem_append, List.mem_cons, List.mem_map, List.not_mem_nil, or_false] at hm
      rcases hm with ⟨db, rfl, rfl⟩ | rfl | ⟨_, hf, _⟩
      · rfl
      · rfl
      · exact hf.elim) kin_sizes.1 kin_sizes.2 kinValues_unify whoOracles whichGrammar which_rulesOk which_spec which_root which_returns which_unit
    kin_rank whichText (by intro i; simp [whoOracles]) (fuel' := 20) (depth' := 20) [] (s := ⟨Grammar.new whichGrammar, ⟨0, []⟩, kinKB.world⟩) rfl rfl
    which_orderly ⟨d, hd⟩
  refine ⟨N, fun fuel depth n h1 h2 h3 => ?_⟩
  obtain ⟨st, ⟨t, d, bs, h, _⟩ | ⟨e, _, _, _, _, _, _, _, _, h, _⟩⟩ := h fuel depth n h1 h2 h3
  · exact ⟨st, .inl ⟨bs, h⟩⟩
  · exact ⟨st, .inr ⟨e, h⟩⟩

end Ex

end Verif

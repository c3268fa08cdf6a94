import Verif.Props.QuantifiedText
import Verif.Props.Attached

/-! C86: entering a text returns. -/

namespace Verif

variable {W : Type}

/-! ## Specification: rules whose functions return -/

/-- The arguments that the function `sem` of a rule with these consequents may be called with, when `V` says what the meanings of a category
with a number of arguments may be: nothing for a word, a text for a regular expression, a meaning for a category. -/
def ArgsFor (V : Str → Nat → Value → Prop) : List Constituent → List Value → Prop
  | [], vs => vs = []
  | c :: cs, vs => match c.pos with
    | .word => ArgsFor V cs vs
    | .regexp => ∃ w us, vs = .str (String.ofList w) :: us ∧ ArgsFor V cs us
    | .relation => ∃ v us, vs = v :: us ∧ V c.predicate c.args.length v ∧ ArgsFor V cs us

/-- The rule has a function `sem`, which returns for all arguments it may be called with. What it returns is a meaning of the category of the
rule, and if that is a list, its elements can be read as atoms. -/
def ReturnsRule (V : Str → Nat → Value → Prop) (r : GRule Attachment) : Prop :=
  ∃ f, semOf r.sem = some f ∧ ∀ vs, ArgsFor V r.cons vs → ∃ v, f vs = .ok v ∧ V r.ante.predicate r.ante.args.length v ∧
    ∀ atoms, v = .list atoms → ∀ a ∈ atoms, ∃ xs, a = .tuple xs

/-! ## The parser -/

theorem extractRoots_mono {A : Type} {E : Oracles} {chart : Chart A} {n a b : Nat} (hab : a ≤ b) {roots : List (ParseTree A)}
    (h : extractRoots E a chart n = .ok roots) : extractRoots E b chart n = .ok roots := by
  simp only [extractRoots] at h ⊢
  cases hc : chart.completed n with
  | none => rw [hc] at h; exact h
  | some l =>
    rw [hc] at h
    simp only at h ⊢
    cases ht : createTrees chart a (completeGamma E n) with
    | ok ts => rw [ht] at h; rw [createTrees_mono hab ht]; exact h
    | err e => rw [ht] at h; simp [Out.bind] at h
    | oof => rw [ht] at h; simp [Out.bind] at h

/-- With enough steps the parser returns the same whatever the number of steps. -/
theorem parse_settles {A : Type} (E : Oracles) (rules : List (GRule A)) (ok : RulesOk rules) (wf : WellFounded (UnitStep rules)) (text : Str)
    (hl : LowerOk E text) : ∃ N r, ∀ fuel depth, N ≤ fuel → N ≤ depth → (parse E fuel depth (Grammar.new rules) text).1 = .ok r := by
  obtain ⟨N, chart, hb⟩ := C31_terminates E rules ok text hl
  have f := (buildChart_inv (chartOk ok hl) (hb N (Nat.le_refl _))).finished (chartOk ok hl)
  obtain ⟨M, hM⟩ := extractRoots_total ok hl f wf
  obtain ⟨roots, hr⟩ := hM M (Nat.le_refl _)
  have key : ∀ fuel depth, max N M ≤ fuel → max N M ≤ depth → (parse E fuel depth (Grammar.new rules) text).1 =
      (parse E (max N M) (max N M) (Grammar.new rules) text).1 := fun fuel depth h1 h2 => by
    simp only [parse, parseWith, hb fuel (by omega), hb (max N M) (by omega), Out.bind, extractRoots_mono (show M ≤ depth by omega) hr,
      extractRoots_mono (show M ≤ max N M by omega) hr]
  obtain ⟨N', hN'⟩ := C61_returns E rules ok wf text hl
  let K := max (max N M) N'
  obtain ⟨r, hr⟩ := hN' K K (by omega) (by omega)
  exact ⟨max N M, r, fun fuel depth h1 h2 => by rw [key fuel depth h1 h2, ← key K K (by omega) (by omega), hr]⟩

/-! ## The composer -/

theorem returns_of_raises {α : Type} {x : M Gen α} {g : Gen} (h : RaisesOnly (fun _ => False) x g) : ∃ g' a, x g = .ok g' a := by
  unfold RaisesOnly at h
  cases hx : x g with
  | ok g' a => exact ⟨g', a, rfl⟩
  | err _ _ => rw [hx] at h; exact h.elim
  | oof => rw [hx] at h; exact h.elim

theorem mapAll_total {d : Dict String} {as : List String} (h : ∀ a ∈ as, ∃ v, d.get a = some v) : ∃ vs, mapAll d as = .ok vs := by
  cases hm : mapAll d as with
  | ok vs => exact ⟨vs, rfl⟩
  | error e =>
    obtain ⟨a, ha, hn⟩ := mapAll_error hm
    obtain ⟨v, hv⟩ := h a ha
    rw [hn] at hv
    cases hv

/-- A node composes, if its children do and its rule returns. -/
theorem node_returns {V : Str → Nat → Value → Prop} (hV : ∀ p k v d, V p k v → V p k (unify d v)) {r : GRule Attachment} (hr : ReturnsRule V r)
    (he : execOf r.sem = none) (hd : ∀ sems, dialogOf r.sem sems = .ok []) {cat form : Str} {us : List (ParseTree Attachment)}
    (hus : ∀ d : Dict String, (∀ c ∈ r.cons, ∀ x ∈ argNames c, ∃ v, d.get x = some v) → ∀ i acc g, ∃ g' parts args,
      composeChildren us r.cons d i acc g = .ok g' parts ∧ parts.sems = acc.sems ++ args ∧ ArgsFor V r.cons args)
    (inc : List String) (g : Gen) (hlen : r.ante.args.length ≤ inc.length) :
    ∃ g' c, compose (.node cat us form r) inc g = .ok g' c ∧ V r.ante.predicate r.ante.args.length c.sem := by
  obtain ⟨g1, d, h1⟩ : ∃ g1 d, createMap r inc g = .ok g1 d := by
    refine returns_of_raises (raisesOnly_bind (raisesOnly_lift fun e he => ?_) fun _ _ _ => raisesOnly_consMap _ _ _)
    have := (anteMap_error he).2
    simp only [argNames, List.length_map] at this
    omega
  obtain ⟨g2, parts, args, h2, h3, h4⟩ := hus d (fun k hk x hx => (createMap_spec h1).2.2.2 k hk x hx) 0 ⟨[], [], [], []⟩ g1
  obtain ⟨f, hf, hret⟩ := hr
  obtain ⟨v, hv, hVv, hat⟩ := hret args h4
  have h3' : parts.sems = args := by rw [h3]; rfl
  obtain ⟨g3, d', h5⟩ : ∃ g3 d', extendMap d v g2 = .ok g3 d' := by
    apply returns_of_raises
    cases v with
    | list atoms =>
      refine raisesOnly_extendAtoms _ _ _ fun a ha h1 _ => ?_
      obtain ⟨xs, hx⟩ := hat atoms rfl a ha
      exact (h1 xs).1 hx
    | _ => exact raisesOnly_pure
  refine ⟨g3, ⟨unify d' v, unifyList d' (parts.inferences ++ []), unifyList d' parts.executable, ([], d') :: parts.maps⟩, ?_, hV _ _ _ _ hVv⟩
  rw [compose, M.bind_ok h1, M.bind_ok h2, hf]
  simp only [execResult, he, h3', hv, hd]
  have l : ∀ {α : Type} (a : α) (g : Gen), M.lift (.ok a) g = .ok g a := fun _ _ => rfl
  rw [M.bind_ok (l v g2), M.bind_ok (l _ g2), M.bind_ok (l _ g2), M.bind_ok h5, M.pure_run]

/-- Trees that represent derivations compose. -/
theorem trees_return {V : Str → Nat → Value → Prop} (hV : ∀ p k v d, V p k v → V p k (unify d v)) {E : Oracles}
    {rules : List (GRule Attachment)} (ok : RulesOk rules) (hr : ∀ r, Usable rules r → ReturnsRule V r)
    (hs : ∀ r, Usable rules r → execOf r.sem = none ∧ ∀ sems, dialogOf r.sem sems = .ok []) {text : Str}
    {cs : List Constituent} {i k : Nat} {ds : List (DTree Attachment)} (hd : Derives E rules text cs i k ds) :
    ∀ ts, TreesOf Eq ds ts → (∀ c ∈ cs, c.pos = .word → c.predicate ≠ []) → (cs ≠ [] → ts ≠ []) ∧ checkAllForSem ts = true ∧
      (∀ d : Dict String, (∀ c ∈ cs, ∀ x ∈ argNames c, ∃ v, d.get x = some v) → ∀ i acc g, ∃ g' parts args,
        composeChildren ts cs d i acc g = .ok g' parts ∧ parts.sems = acc.sems ++ args ∧ ArgsFor V cs args) ∧
      ∀ t ∈ ts, t.children ≠ [] → ∀ inc g, t.rule.ante.args.length ≤ inc.length → ∃ g' c, compose t inc g = .ok g' c ∧
        V t.rule.ante.predicate t.rule.ante.args.length c.sem := by
  induction hd with
  | nil i =>
    intro ts ht _
    cases ht
    exact ⟨by simp, rfl, fun d _ i acc g => ⟨g, acc, [], by simp [composeChildren, M.pure_run], by simp, rfl⟩, by simp⟩
  | @leaf c cs i j k form ds htok hd ih =>
    intro ts ht hw
    cases ht with
    | @leaf _ _ r _ ts hrs ht =>
      obtain ⟨_, i1, i2, i3⟩ := ih ts ht fun c hc => hw c (List.mem_cons_of_mem _ hc)
      have hform : form ≠ [] := by
        rcases htok.2.2 with h | h
        · rw [h.2.1]; exact hw c (by simp) h.1
        · exact h.2.1
      refine ⟨by simp, ?_, ?_, ?_⟩
      · simp [checkAllForSem, checkForSem, i1, hform]
      · intro d hdom n acc g
        have hdom' := fun c hc => hdom c (List.mem_cons_of_mem _ hc)
        rw [composeChildren]
        simp only [List.isEmpty_nil, if_true]
        rcases htok.2.2 with h | h
        · obtain ⟨g', parts, args, h1, h2, h3⟩ := i2 d hdom' (n + 1) acc g
          refine ⟨g', parts, args, ?_, h2, ?_⟩
          · simpa [hrs.2, leafAttached, h.1, semOf] using h1
          · simpa [ArgsFor, h.1] using h3
        · obtain ⟨g', parts, args, h1, h2, h3⟩ := i2 d hdom' (n + 1) ⟨acc.sems ++ [.str (String.ofList form)], acc.inferences, acc.executable, acc.maps⟩ g
          refine ⟨g', parts, .str (String.ofList form) :: args, ?_, by simpa using h2, ?_⟩
          · simp only [hrs.2, leafAttached, h.1, semOf, if_true]
            exact h1
          · simp only [ArgsFor, h.1]
            exact ⟨form, args, rfl, h3⟩
      · intro t ht hne
        rcases List.mem_cons.1 ht with rfl | ht
        · simp [ParseTree.children] at hne
        · exact i3 t ht hne
  | @node c cs i j k r ds es hu heq hd he ihd ihe =>
    intro ts ht hw
    cases ht with
    | @node _ r' _ us _ ts hrr hus hts =>
      subst hrr
      obtain ⟨r0, h0, ha0, hm, _⟩ := hu.cons_mem
      obtain ⟨_, i1, i2, i3⟩ := ihe ts hts fun c hc => hw c (List.mem_cons_of_mem _ hc)
      obtain ⟨j0, j1, j2, j3⟩ := ihd us hus fun c hc hp => ok.word_ne r0 h0 c (hm c hc) hp
      have hne : us ≠ [] := by
        obtain ⟨r1, h1, hv⟩ := hu
        exact j0 (ok.cons_ne r1 h1 r hv)
      have hemp : us.isEmpty = false := by cases us <;> simp_all
      obtain ⟨f, hf, _⟩ := id (hr r hu)
      have hnode := node_returns hV (hr r hu) (hs r hu).1 (hs r hu).2 (cat := r.ante.predicate) (form := []) j2
      have hrel : r.ante.pos = .relation := by
        obtain ⟨r1, h1, hv⟩ := hu
        rw [(C36_mandatory r1 r hv).1]; exact ok.relation r1 h1
      simp only [Constituent.equals] at heq
      have hpos : c.pos = .relation := by simp_all
      have hargs : c.args.length = r.ante.args.length := by simp_all
      have hpred : c.predicate = r.ante.predicate := by simp_all
      refine ⟨by simp, ?_, ?_, ?_⟩
      · simp [checkAllForSem, checkForSem, i1, j1, hf]
      · intro d hdom n acc g
        have hdom' := fun c hc => hdom c (List.mem_cons_of_mem _ hc)
        obtain ⟨inc, hinc⟩ := mapAll_total (hdom c (by simp))
        have hlen : r.ante.args.length ≤ inc.length := by
          have := (mapAll_get hinc).1
          simp only [argNames, List.length_map] at this
          omega
        obtain ⟨g1, m, hc, hvm⟩ := hnode inc g hlen
        obtain ⟨g', parts, args, h1, h2, h3⟩ := i2 d hdom' (n + 1) ⟨acc.sems ++ [m.sem], acc.inferences ++ m.inferences, acc.executable ++ m.executable,
          acc.maps ++ m.maps.map fun x => (n :: x.1, x.2)⟩ g1
        refine ⟨g', parts, m.sem :: args, ?_, by simpa using h2, ?_⟩
        · rw [composeChildren]
          simp only [hemp, Bool.false_eq_true, if_false]
          have l : M.lift (mapAll d (argNames c)) g = .ok g inc := by rw [hinc]; rfl
          rw [M.bind_ok l, M.bind_ok hc]
          exact h1
        · simp only [ArgsFor, hpos]
          exact ⟨m.sem, args, rfl, by rw [hpred, hargs]; exact hvm, h3⟩
      · intro t ht
        rcases List.mem_cons.1 ht with rfl | ht
        · exact fun _ => hnode
        · exact i3 t ht

theorem nextVars_total (as : List Str) (g : Gen) : ∃ g' vs, nextVars as g = .ok g' vs := by
  apply returns_of_raises
  induction as generalizing g with
  | nil => exact raisesOnly_pure
  | cons a as ih => exact raisesOnly_bind trivial fun _ _ _ => raisesOnly_bind (ih _) fun _ _ _ => raisesOnly_pure

/-- The tree of a derivation of a text composes. -/
theorem sentence_composes {V : Str → Nat → Value → Prop} (hV : ∀ p k v d, V p k v → V p k (unify d v)) {E : Oracles}
    {rules : List (GRule Attachment)} (ok : RulesOk rules) (hr : ∀ r, Usable rules r → ReturnsRule V r)
    (hs : ∀ r, Usable rules r → execOf r.sem = none ∧ ∀ sems, dialogOf r.sem sems = .ok []) {text : Str} {c : Constituent} (hc : c.pos = .relation)
    {d : DTree Attachment} (hd : Derives E rules text [c] 0 text.length [d]) {t : ParseTree Attachment} (ht : TreesOf Eq [d] [t])
    (hne : t.children ≠ []) (g : Gen) :
    ∃ g' p, composeSentence t g = .ok g' p ∧ V t.rule.ante.predicate t.rule.ante.args.length p.2.sem := by
  obtain ⟨_, h1, _, h2⟩ := trees_return hV ok hr hs hd [t] ht (by simp [hc])
  have hck : checkForSem t = true := by simpa [checkAllForSem] using h1
  obtain ⟨g1, roots, h3⟩ := nextVars_total t.rule.ante.args g
  obtain ⟨g2, m, h4, h5⟩ := h2 t (by simp) hne roots g1 (by rw [(nextVars_roots h3).2.1]; exact Nat.le_refl _)
  refine ⟨g2, (roots, m), ?_, h5⟩
  rw [composeSentence, hck]
  simp only [Bool.not_true, Bool.false_eq_true, if_false]
  rw [M.bind_ok h3, M.bind_ok h4, M.pure_run]

/-! ## The pipeline -/

/-- A `TryFirst` block whose processor gives one product goes on with it. -/
theorem tryFirst_run {P : Type} {p : Processor P W} {next : M (Request P × W) BlockResult} {s : Request P × W} {w : W} {x : P}
    (h : p.process s.1 s.2 = .ok w ⟨[x], "", []⟩) :
    tryFirst p next s = (next >>= fun r => pure ⟨r.errorType, r.errorArgs⟩) ((s.1.setAlternatives p.id [x]).setCurrent p.id x, w) := by
  have h1 : execProcess p s = .ok (s.1, w) ⟨[x], "", []⟩ := by simp [execProcess, onWorld, h]
  rw [tryFirst, M.bind_ok h1]
  simp [M.bind_run, setAlternativeProducts, setCurrentProduct, M.modify_run]

/-- A processor that raises. -/
theorem tryFirst_raise {P : Type} {p : Processor P W} {next : M (Request P × W) BlockResult} {s : Request P × W} {w : W} {e : Err}
    (h : p.process s.1 s.2 = .err w e) : tryFirst p next s = .err (s.1, w) e := by
  have h1 : execProcess p s = .err (s.1, w) e := by simp [execProcess, onWorld, h]
  rw [tryFirst, M.bind_run, h1]

/-- A sentence whose parser, composer and optimiser return, and whose rules have no `exec` and no `dialog`, gives what the query gives. -/
theorem enter_query {E : Oracles} {fuel depth : Nat} {optimizer : Option (List (Module W))} {api : SolverApi W} {text : Str} {s : Session W}
    {t : ParseTree Attachment} {rest : List (ParseTree Attachment)} {g : Gen} {roots : List String} {c : Composed} {w1 : W}
    {forms : List (String × Value)} {o : SolOut} (hp : (basicParse E fuel depth s.grammar text).1 = .ok (t :: rest, .none))
    (hc : composeSentence t s.gen = .ok g (roots, c)) (hi : c.inferences = []) (he : c.executable = [])
    (hf : composerForms optimizer c.sem roots s.world = .ok w1 forms) (hx : api.solve (.list []) [] w1 = .ok w1 o) :
    (∀ w out, api.solve (ComposerProduct.lastIteration ⟨forms, c.inferences, .list c.executable, roots⟩) [] w1 = .ok w out →
      ∃ st, enter api.inSession (sentencePipeline E fuel depth optimizer api) (Request.new text, s) = .ok st (some (.executed out))) ∧
    (∀ w e, api.solve (ComposerProduct.lastIteration ⟨forms, c.inferences, .list c.executable, roots⟩) [] w1 = .err w e →
      ∃ st, enter api.inSession (sentencePipeline E fuel depth optimizer api) (Request.new text, s) = .err st e) := by
  have hcomp : ∀ (req : Request (Product (ParseTree Attachment))) gr, req.current 0 = some (.parse t) →
      (semanticComposer 1 0 optimizer).process req { s with grammar := gr } =
        .ok { s with grammar := gr, gen := g, world := w1 } ⟨[.composed ⟨forms, c.inferences, .list c.executable, roots⟩], "", []⟩ := by
    intro req gr hr
    have e1 : inGen (composeSentence t) { s with grammar := gr } = .ok { s with grammar := gr, gen := g } (roots, c) := inGen_ok.2 ⟨g, hc, rfl⟩
    have e2 : inWorld (composerForms optimizer c.sem roots) { s with grammar := gr, gen := g } = .ok { s with grammar := gr, gen := g, world := w1 } forms :=
      inWorld_ok.2 ⟨w1, hf, rfl⟩
    simp only [semanticComposer, hr]
    rw [M.bind_ok e1, M.bind_ok e2, M.pure_run]
  have hexec : ∀ (req : Request (Product (ParseTree Attachment))) (s0 : Session W), s0.world = w1 →
      req.current 1 = some (.composed ⟨forms, c.inferences, .list c.executable, roots⟩) →
      (atomExecutor 2 1 api.inSession).process req s0 =
        (do
          let out ← api.inSession.solve (ComposerProduct.lastIteration ⟨forms, c.inferences, .list c.executable, roots⟩) []
          pure ⟨[.executed out], "", []⟩ : M (Session W) (ProcResult (Product (ParseTree Attachment)))) s0 := by
    intro req s0 hw hr
    have e1 : api.inSession.solve (.list []) [] s0 = .ok s0 o := inWorld_ok.2 ⟨w1, by rw [hw]; exact hx, by rw [← hw]⟩
    simp only [atomExecutor, hr, hi, he]
    rw [writeAll, M.bind_ok (M.pure_run ..), M.bind_ok e1]
  have hrun : ∀ s1 : Request (Product (ParseTree Attachment)) × Session W, ∀ gr, s1.1.current 0 = some (.parse t) → s1.2 = { s with grammar := gr } →
      (∀ w out, api.solve (ComposerProduct.lastIteration ⟨forms, c.inferences, .list c.executable, roots⟩) [] w1 = .ok w out →
        ∃ st, runBlocks [⟨.tryFirst, semanticComposer 1 0 optimizer⟩, ⟨.tryFirst, atomExecutor 2 1 api.inSession⟩] s1 = .ok st .success ∧
          st.1.current 2 = some (.executed out)) ∧
      (∀ w e, api.solve (ComposerProduct.lastIteration ⟨forms, c.inferences, .list c.executable, roots⟩) [] w1 = .err w e →
        ∃ st, runBlocks [⟨.tryFirst, semanticComposer 1 0 optimizer⟩, ⟨.tryFirst, atomExecutor 2 1 api.inSession⟩] s1 = .err st e) := by
    rintro ⟨req, s1⟩ gr hr rfl
    simp only [runBlocks, Block.process]
    rw [tryFirst_run (hcomp req gr hr)]
    have hcur : ((req.setAlternatives 1 [.composed ⟨forms, c.inferences, .list c.executable, roots⟩]).setCurrent 1
        (.composed ⟨forms, c.inferences, .list c.executable, roots⟩)).current 1 = some (.composed ⟨forms, c.inferences, .list c.executable, roots⟩) := by
      simp [Request.setCurrent]
    have hex := hexec _ { s with grammar := gr, gen := g, world := w1 } rfl hcur
    constructor
    · intro w out h
      have e1 : api.inSession.solve (ComposerProduct.lastIteration ⟨forms, c.inferences, .list c.executable, roots⟩) []
          { s with grammar := gr, gen := g, world := w1 } = .ok { s with grammar := gr, gen := g, world := w } out := inWorld_ok.2 ⟨w, h, rfl⟩
      rw [M.bind_ok e1, M.pure_run] at hex
      have e2 := (tryFirst_run (next := pure .success) (s := (_, _)) hex).trans (M.bind_ok (M.pure_run ..))
      rw [M.pure_run] at e2
      exact ⟨_, (M.bind_ok e2).trans rfl, by simp [Request.setCurrent, atomExecutor]⟩
    · intro w e h
      have e1 : api.inSession.solve (ComposerProduct.lastIteration ⟨forms, c.inferences, .list c.executable, roots⟩) []
          { s with grammar := gr, gen := g, world := w1 } = .err { s with grammar := gr, gen := g, world := w } e := by
        simp [SolverApi.inSession, inWorld, h]
      rw [M.bind_run, e1] at hex
      exact ⟨_, by rw [M.bind_run, tryFirst_raise hex]⟩
  have hparse : (basicParser 0 E fuel depth).process (Request.new (P := Product (ParseTree Attachment)) text) s =
      .ok { s with grammar := (basicParse E fuel depth s.grammar text).2 } ⟨(t :: rest).map .parse, "", []⟩ := by
    simp only [basicParser]
    cases hb : basicParse E fuel depth s.grammar (Request.new (P := Product (ParseTree Attachment)) text).text with
    | mk o gr =>
      have hb' : basicParse E fuel depth s.grammar text = (o, gr) := hb
      rw [hb'] at hp ⊢
      simp only at hp
      subst hp
      rfl
  have hblocks : runBlocks (sentencePipeline E fuel depth optimizer api) (Request.new text, s) =
      (runBlocks [⟨.tryFirst, semanticComposer 1 0 optimizer⟩, ⟨.tryFirst, atomExecutor 2 1 api.inSession⟩] >>= fun r : BlockResult =>
        if r.errorType = "" then pure BlockResult.success
        else findOneProducts 0 (runBlocks [⟨.tryFirst, semanticComposer 1 0 optimizer⟩, ⟨.tryFirst, atomExecutor 2 1 api.inSession⟩])
          (rest.map .parse) ⟨r.errorType, r.errorArgs⟩)
      (((Request.new text).setAlternatives 0 ((t :: rest).map .parse)).setCurrent 0 (.parse t),
        { s with grammar := (basicParse E fuel depth s.grammar text).2 }) := by
    rw [sentencePipeline, runBlocks]
    simp only [Block.process]
    have h1 : execProcess (basicParser 0 E fuel depth) (Request.new text, s) = .ok (Request.new text, { s with grammar := (basicParse E fuel depth s.grammar text).2 })
        ⟨(t :: rest).map .parse, "", []⟩ := by simp only [execProcess]; exact onWorld_ok.2 ⟨_, hparse, rfl⟩
    rw [findOne, M.bind_ok h1]
    rfl
  obtain ⟨hok, herr⟩ := hrun (((Request.new text).setAlternatives 0 ((t :: rest).map .parse)).setCurrent 0 (.parse t),
    { s with grammar := (basicParse E fuel depth s.grammar text).2 }) _ (by simp [Request.setCurrent]) rfl
  constructor
  · intro w out h
    obtain ⟨st, h1, h2⟩ := hok w out h
    rw [M.bind_ok h1] at hblocks
    refine ⟨st, ?_⟩
    rw [sentencePipeline] at hblocks
    simp only [enter, sentencePipeline, List.getLast?_cons_cons, List.getLast?_singleton]
    rw [M.bind_ok (show _ = Res.ok st BlockResult.success from hblocks)]
    rw [if_neg (by simp [BlockResult.success]), M.bind_ok (M.gets_run ..)]
    have hid : (atomExecutor (T := ParseTree Attachment) 2 1 api.inSession).id = 2 := rfl
    rw [hid, h2]
    rfl
  · intro w e h
    obtain ⟨st, h1⟩ := herr w e h
    rw [M.bind_run, h1] at hblocks
    refine ⟨st, ?_⟩
    simp only [enter, sentencePipeline, List.getLast?_cons_cons, List.getLast?_singleton]
    rw [M.bind_run]
    rw [sentencePipeline] at hblocks
    rw [hblocks]

/-! ## The query -/

section
variable {ar : String → Option Nat} {tables : List (Dict (List (List Value)))} {rs : List HornRule}

/-- A rank that is bounded: predicates without rules have rank 0. -/
theorem bounded_rank {rank : String → Nat} (hrank : Descends (program tables rs) rank) :
    ∃ (rank' : String → Nat) (m : Nat), Descends (program tables rs) rank' ∧ ∀ p, rank' p ≤ m := by
  classical
  obtain ⟨level, hdown, hle⟩ := hrank
  refine ⟨fun p => if ∃ r ∈ rs, r.pred = p then rank p else 0, (rs.map fun r => rank r.pred).sum,
    ⟨fun p vs => if ∃ r ∈ rs, r.pred = p then level p vs else 0, ?_, ?_⟩, ?_⟩
  · intro p hargs body hr vs σ h1 h2 pre a post h3 h4
    have h := hdown p hargs body hr vs σ h1 h2 pre a post h3 h4
    have h5 : (if ∃ r' ∈ rs, r'.pred = p then level p vs else 0) = level p vs := if_pos ⟨_, hr, rfl⟩
    simp only [h5]
    split
    · exact h
    · omega
  · intro p vs
    simp only
    split
    · exact hle p vs
    · exact Nat.le_refl _
  · intro p
    simp only
    split
    · rename_i h
      obtain ⟨r, hr, rfl⟩ := h
      clear hdown
      induction rs with
      | nil => cases hr
      | cons r' rs ih =>
        simp only [List.map_cons, List.sum_cons]
        rcases List.mem_cons.1 hr with rfl | hr
        · omega
        · have := ih hr
          omega
    · exact Nat.zero_le _

/-- Composed queries return, with and without optimiser, at all depths from some depth on. -/
theorem forms_return (K : KnowledgeBase W ar tables rs) (hrr : HeadsBound rs) {optimizer : Option (List (Module W))} (hopt : OptimizerOk K optimizer)
    {rank : String → Nat} (hrank : Descends (program tables rs) rank)
    {q : Query} (hq : QueryOk ar q) (hcl : ConstsClosed q) (roots : List String) (inf : List Value) (ex : Value) :
    ∃ N forms, composerForms optimizer (toQuery q) roots K.world = .ok K.world forms ∧
      ∀ n, N ≤ n → ∃ w out, (solverAt K.modules n).solve (ComposerProduct.lastIteration ⟨forms, inf, ex, roots⟩) [] K.world = .ok w out := by
  have hb : PlainB [] := fun x v hx => by simp at hx
  have hok : ProgramOk W ar (K.dbs ++ K.dbs') rs := K.split ▸ K.ok
  have hh := holds_inference K.lens K.world ar K.facts K.facts' rs hok K.inserted
  obtain ⟨rank', m, hrank', hm⟩ := bounded_rank hrank
  rcases hopt with rfl | ⟨rfl, hsc, hsz⟩
  · refine ⟨m + 1, _, rfl, fun n hn => ?_⟩
    simp only [ComposerProduct.lastIteration, List.foldl_cons, List.foldl_nil]
    obtain ⟨n, rfl⟩ : ∃ k, n = k + 1 := ⟨n - 1, by omega⟩
    obtain ⟨level, hdown, hle⟩ := hrank'
    obtain ⟨bs, h⟩ := C92_recursive_returns K.lens K.facts K.facts' hok K.inserted (K.split ▸ hdown) hq hb (n := n) fun pre a post _ σ _ _ _ =>
      Nat.lt_succ_of_le (Nat.le_trans (hle _ _) (Nat.le_trans (hm a.1) (by omega)))
    exact ⟨_, _, h⟩
  · have hnn : NoNested q := fun a ha v hv hi => varsOf_closed v (hcl a ha v hv hi).1
    have hnl : NoLists q := by
      intro a ha v hv xs e
      subst e
      exact (hcl a ha _ hv rfl).2 xs rfl
    have hsz' : SizesOk K.modules K.world q := fun a ha r hr => hsz a.1 _ (hq a ha).1 r hr
    obtain ⟨q2, hp, ho⟩ := optimize_form hnl hsz' roots
    have hforms : ∃ pre, composerForms (some K.modules) (toQuery q) roots K.world =
        .ok K.world (pre ++ [("Isolated", .list (isolate (q2.map toAtom) roots))]) := by
      simp only [optimize, M.bind_eq_ok, M.pure_eq_ok] at ho
      obtain ⟨_, s1, h1, _, s2, h2, rfl, h3⟩ := ho
      refine ⟨[("Semantics", .list (q.map toAtom)), ("Names resolved", .list s1), ("Sorted by cost", .list s2)], ?_⟩
      simp only [composerForms, toQuery, optimizeForms]
      rw [M.bind_ok h1]
      rw [KnowledgeBase.modules, M.bind_ok h2, M.pure_run, h3]
      rfl
    obtain ⟨pre, hforms⟩ := hforms
    refine ⟨m + q2.length + 1, _, hforms, fun n hn => ?_⟩
    simp only [ComposerProduct.lastIteration, List.foldl_append, List.foldl_cons, List.foldl_nil]
    obtain ⟨n, rfl⟩ : ∃ k, n = k + 1 := ⟨n - 1, by omega⟩
    have hex := atomsExact (fin := true) (m := m) hok hh hrr fun _ => ⟨rank', K.split ▸ hrank', fun p k _ => hm p⟩
    have hev := isolateN_evaluates hsc hex (q2.map toAtom).length n roots q2 (by omega) (by simp; omega)
        (fun a ha => hq a (hp.mem_iff.1 ha)) (fun a ha => hnn a (hp.mem_iff.1 ha)) (.inr rfl)
    rcases hev [] hb (by simp) with ⟨h, _⟩ | ⟨bs, h1, _⟩
    · cases h
    · exact ⟨_, _, h1⟩

/-- A text with a derivation is parsed: from some number of steps on the parser gives the same trees, of which the first is the tree of a
derivation. -/
theorem first_tree {E : Oracles} {rules : List (GRule Attachment)} (ok : RulesOk rules) (wf : WellFounded (UnitStep rules)) {text : Str}
    (hl : LowerOk E (normalizeSpace text)) (hd : ∃ d, WholeDerivation E rules (normalizeSpace text) d) :
    ∃ N t rest c d, (∀ fuel depth, N ≤ fuel → N ≤ depth → (basicParse E fuel depth (Grammar.new rules) text).1 = .ok (t :: rest, .none)) ∧
      c.predicate = cRoot ∧ c.pos = .relation ∧ Derives E rules (normalizeSpace text) [c] 0 (normalizeSpace text).length [d] ∧ TreesOf Eq [d] [t] := by
  obtain ⟨N, ⟨trees, e⟩, hN⟩ := parse_settles E rules ok wf (normalizeSpace text) hl
  obtain ⟨d', c', hc1', hc2', hd'⟩ := hd
  obtain ⟨t', ht', _⟩ := C30_complete E rules ok _ hl N N trees e (hN N N (Nat.le_refl _) (Nat.le_refl _)) c' hc1' hc2' d' hd'
  have hb : ∀ fuel depth, N ≤ fuel → N ≤ depth → (basicParse E fuel depth (Grammar.new rules) text).1 = .ok (sortTrees trees, e) := by
    intro fuel depth h1 h2
    simp only [basicParse]
    rw [hN fuel depth h1 h2]
    rfl
  have hperm := C38_permutation trees
  obtain ⟨_, hnone⟩ := parse_trees (hb N N (Nat.le_refl _) (Nat.le_refl _))
  cases hs : sortTrees trees with
  | nil => rw [hs] at hperm; have := hperm.mem_iff.2 ht'; simp at this
  | cons t rest =>
    rw [hs] at hb hperm hnone
    have := hnone (by simp)
    subst this
    obtain ⟨c, d, hc1, hc2, hd, htree⟩ := C29_derivation E rules ok _ hl N N trees _ (hN N N (Nat.le_refl _) (Nat.le_refl _)) t (hperm.mem_iff.1 (by simp))
    exact ⟨N, t, rest, c, d, hb, hc1, hc2, hd, htree⟩

/-! ## C86 -/

/-- **C86** A text that can be derived is answered. The rules of the grammar conjoin, their functions return, no unit rules form a cycle, and the
calls of the rules of the knowledge base go down (they do without recursion; for recursion see C92). Then, with whatever number of steps and depth from some number on, entering the text returns answers; they are
right, as in C70: there is a derivation whose tree is first in rank, and the values of the root variables in the answers are exactly the
values that the tree is true of. -/
theorem C86_answered (K : KnowledgeBase W ar tables rs) (hrr : HeadsBound rs) {own : GRule Attachment → List Value → Query}
    {V : Str → Nat → Value → Prop} (hV : ∀ p k v d, V p k v → V p k (unify d v))
    (E : Oracles) (rules : List (GRule Attachment)) (ok : RulesOk rules) (hconj : ∀ r, Usable rules r → ConjRule ar own r)
    (hret : ∀ r, Usable rules r → ReturnsRule V r) (wf : WellFounded (UnitStep rules))
    {rank : String → Nat} (hrank : Descends (program tables rs) rank)
    (text : Str) (hl : LowerOk E (normalizeSpace text)) {optimizer : Option (List (Module W))} (hopt : OptimizerOk K optimizer)
    {fuel' depth' : Nat} (texts : List Str) {s : Session W} (hg : s.grammar = parseHistory E fuel' depth' (Grammar.new rules) texts)
    (hw : s.world = K.world) (hd : ∃ d, WholeDerivation E rules (normalizeSpace text) d) :
    ∃ N, ∀ fuel depth n, N ≤ fuel → N ≤ depth → N ≤ n → ∃ st t d bs,
      enter (solverAt K.modules n).inSession (sentencePipeline E fuel depth optimizer (solverAt K.modules n)) (Request.new text, s) =
        .ok st (some (.executed (.rows bs))) ∧
      WholeDerivation E rules (normalizeSpace text) d ∧ TreesOf Eq [d] [t] ∧
      (∀ d', WholeDerivation E rules (normalizeSpace text) d' → ∃ t', TreesOf (fun r r' => r.equals r' = true) [d'] [t'] ∧
        (t' = t ∨ RankedBefore t t')) ∧
      st.2.world = K.world ∧ st.2.grammar = parseHistory E fuel' depth' (Grammar.new rules) (texts ++ [normalizeSpace text]) ∧
      ∀ vals : List Value, vals.length = t.rule.ante.args.length → (∀ v ∈ vals, Plain v) →
        ((∃ b ∈ bs, Fits b ((List.range t.rule.ante.args.length).map fun j => genName (s.gen.number + j + 1)) vals) ↔
          Means (program tables rs) own t vals) := by
  obtain ⟨N, t, rest, c, d, hp, hc1, hc2, hd, htree⟩ := first_tree ok wf hl hd
  obtain ⟨i1, i2, _, _, _, _, i8, _⟩ := derived_conjunctive ok hconj hd [t] htree
  simp only [ConjunctiveAll, SilentAll, and_true] at i1 i2
  have hne : t.children ≠ [] := i8 0 t c rfl rfl hc2
  obtain ⟨g, ⟨roots, m⟩, hcomp, _⟩ := sentence_composes hV ok hret (fun r hr => ⟨(hconj r hr).noExec, (hconj r hr).noDialog⟩) hc2 hd htree hne s.gen
  obtain ⟨g1, h1, h2, _⟩ := composeSentence_parts hcomp
  obtain ⟨e1, e2⟩ := compose_silent _ _ _ _ _ hne i2 h2
  obtain ⟨q, hq, hok, hcl, _⟩ := C69_composed_iff_means (program tables rs) hne i1 hcomp
  obtain ⟨M, forms, hforms, hsolve⟩ := forms_return K hrr hopt hrank hok hcl roots m.inferences (.list m.executable)
  refine ⟨max N (M + 1), fun fuel depth n hf hdp hn => ?_⟩
  obtain ⟨w, out, hs⟩ := hsolve n (by omega)
  have hx : (solverAt K.modules n).solve (.list []) [] K.world = .ok K.world (.rows [[]]) := by
    obtain ⟨n, rfl⟩ : ∃ k, n = k + 1 := ⟨n - 1, by omega⟩
    rfl
  have hp' : (basicParse E fuel depth s.grammar text).1 = .ok (t :: rest, .none) := by
    rw [hg, C33_no_memory_block]
    exact hp fuel depth (by omega) (by omega)
  obtain ⟨st, hst⟩ := (enter_query (optimizer := optimizer) (api := solverAt K.modules n) hp' hcomp e1 e2 (by rw [hq, hw]; exact hforms) hx).1 w out hs
  obtain ⟨k1, k2⟩ := C70_text_to_answers K hrr E rules ok hconj text hl fuel depth n hopt texts hg hw hst
  rcases k2 with ⟨k, _⟩ | ⟨t1, d1, bs, k2, k3, k4, k5, k6, product, k7, roots', k8, k9, k10⟩
  · cases k
  · rw [k5] at hst
    refine ⟨st, t1, d1, bs, hst, k2, k3, k4, k6, k1, fun vals hlen hpl => ?_⟩
    rw [← k9]
    exact k10 vals (by rw [k9]; simpa using hlen) hpl

/-- Entering a sentence gives the right answers or the exception that its query gives. -/
theorem quantified_run (K : KnowledgeBase W ar tables rs) (hrr : HeadsBound rs) (hcore : ∀ p ∈ coreNames, NotDefined K.others K.world p)
    {R : List String} {kinds : Str → Nat → Kind} {spec : GRule Attachment → List Value → RuleParts}
    {V : Str → Nat → Value → Prop} (hV : ∀ p k v d, V p k v → V p k (unify d v))
    (E : Oracles) (rules : List (GRule Attachment)) (ok : RulesOk rules) (hspec : ∀ r, Usable rules r → SpecRule ar R kinds spec r)
    (hroot : ∀ r, Usable rules r → r.ante.predicate = cRoot → ∃ s, kinds cRoot r.ante.args.length = .phrase s ∧ RootSig s)
    (hret : ∀ r, Usable rules r → ReturnsRule V r) (wf : WellFounded (UnitStep rules))
    {rank : String → Nat} (hrank : Descends (program tables rs) rank)
    (text : Str) (hl : LowerOk E (normalizeSpace text))
    {fuel' depth' : Nat} (texts : List Str) {s : Session W} (hg : s.grammar = parseHistory E fuel' depth' (Grammar.new rules) texts)
    (hw : s.world = K.world) (hd : ∃ d, WholeDerivation E rules (normalizeSpace text) d) :
    ∃ N, ∀ fuel depth n, N ≤ fuel → N ≤ depth → N ≤ n → ∃ st,
      (∃ t d bs, enter (solverAt K.modules n).inSession (sentencePipeline E fuel depth none (solverAt K.modules n)) (Request.new text, s) =
          .ok st (some (.executed (.rows bs))) ∧
        WholeDerivation E rules (normalizeSpace text) d ∧ TreesOf Eq [d] [t] ∧
        (∀ d', WholeDerivation E rules (normalizeSpace text) d' → ∃ t', TreesOf (fun r r' => r.equals r' = true) [d'] [t'] ∧
          (t' = t ∨ RankedBefore t t')) ∧
        st.2.world = K.world ∧ st.2.grammar = parseHistory E fuel' depth' (Grammar.new rules) (texts ++ [normalizeSpace text]) ∧
        (bs ≠ [] ↔ ∃ vals : List Value, vals.length = t.rule.ante.args.length ∧ (∀ v ∈ vals, Plain v) ∧
          SentenceTrue (program tables rs) spec t vals) ∧
        ∀ vals : List Value, vals.length = t.rule.ante.args.length → (∀ v ∈ vals, Plain v) →
          ((∃ b ∈ bs, Fits b ((List.range t.rule.ante.args.length).map fun j => genName (s.gen.number + j + 1)) vals) ↔
            SentenceTrue (program tables rs) spec t vals)) ∨
      ∃ e q k w', enter (solverAt K.modules n).inSession (sentencePipeline E fuel depth none (solverAt K.modules n)) (Request.new text, s) = .err st e ∧
        FormsOk ar q (fun _ => False) ∧ V cRoot k (.list (formValues q)) ∧ K.askForms n q [] = .err w' e := by
  obtain ⟨N, t, rest, c0, d, hp, hc1, hc2, hd, htree⟩ := first_tree ok wf hl hd
  have hts : TreesSpec ar (program tables rs) R kinds spec [c0] [t] := derived_spec ok hspec hd [t] htree
  have hne : t.children ≠ [] := hts.inner 0 t c0 rfl rfl hc2
  obtain ⟨e1, e2, e3⟩ := equals_iff (hts.ante 0 t c0 rfl rfl)
  obtain ⟨sg, hsg, hrs⟩ : ∃ sg, kinds cRoot t.rule.ante.args.length = .phrase sg ∧ RootSig sg := by
    cases hd with
    | leaf htok _ => rcases htok.2.2 with h | h <;> rw [h.1] at hc2 <;> cases hc2
    | node hu _ _ _ =>
      cases htree with
      | node hrr _ _ =>
        subst hrr
        exact hroot _ hu (e1.trans hc1)
  have hkc : kinds c0.predicate c0.args.length = .phrase sg := by rw [hc1, ← e2]; exact hsg
  obtain ⟨D, hD⟩ := hts.phrase 0 c0 sg rfl hc2 hkc
  have hD' : nodeMeaning (program tables rs) spec t = .phrase D := by
    match t, hne, hD with
    | .node cat cs form r, hne, hD =>
      have : cs.isEmpty = false := by cases cs <;> simp_all [ParseTree.children]
      simpa [nodeMeanings, this] using hD
  have hsig : sigOf kinds t.rule.ante = sg := by simp only [sigOf, e1.trans hc1, hsg]
  have hrs' : RootSig (sigOf kinds t.rule.ante) := by rw [hsig]; exact hrs
  obtain ⟨g, ⟨roots, m⟩, hcomp, hval⟩ := sentence_composes hV ok hret (fun r hr => ⟨(hspec r hr).noExec, (hspec r hr).noDialog⟩) hc2 hd htree hne s.gen
  obtain ⟨g1, h1, h2, _⟩ := composeSentence_parts hcomp
  obtain ⟨i1, i2⟩ := compose_silent _ _ _ _ _ hne hts.silent.1 h2
  obtain ⟨q, hq, hok, _⟩ := C76_composed_iff_true (R := R) (sigs := fun r => sigOf kinds r.ante) (program tables rs) hne hts.good.1 hrs' hD' hcomp
  have hB : (fun x => Dict.has ([] : Binding) x = true) = fun _ => False := by
    funext x
    simp [Dict.has, Dict.get]
  refine ⟨max N (formsDepth rank q + 1), fun fuel depth n hf hdp hn => ?_⟩
  have hx : (solverAt K.modules n).solve (.list []) [] K.world = .ok K.world (.rows [[]]) := by
    obtain ⟨n, rfl⟩ : ∃ k, n = k + 1 := ⟨n - 1, by omega⟩
    rfl
  have hp' : (basicParse E fuel depth s.grammar text).1 = .ok (t :: rest, .none) := by
    rw [hg, C33_no_memory_block]
    exact hp fuel depth (by omega) (by omega)
  obtain ⟨o1, o2⟩ := enter_query (optimizer := none) (api := solverAt K.modules n) hp' hcomp i1 i2
    (forms := [("Semantics", m.sem)]) (w1 := K.world) (by rw [hw]; rfl) hx
  simp only [ComposerProduct.lastIteration, List.foldl_cons, List.foldl_nil] at o1 o2
  rcases C71_returns K hrr hcore hrank (n := n) (q := q) (b := []) (by rw [hB]; exact hok) (fun x v hx => by simp at hx) (by omega) with ⟨bs, h⟩ | ⟨w', e, h⟩
  · obtain ⟨st, hst⟩ := o1 _ _ (by rw [hq]; exact h)
    obtain ⟨k1, k2⟩ := C77_text_to_answers K hrr hcore E rules ok hspec hroot text hl fuel depth n texts hg hw hst
    rcases k2 with ⟨k, _⟩ | ⟨t1, d1, bs, k2, k3, k4, k5, k6, k11, product, k7, roots', k8, k9, _, k10⟩
    · cases k
    · rw [k5] at hst
      refine ⟨st, .inl ⟨t1, d1, bs, hst, k2, k3, k4, k6, k1, k11, fun vals hlen hpl => ?_⟩⟩
      rw [← k9]
      exact k10 vals (by rw [k9]; simpa using hlen) hpl
  · obtain ⟨st, hst⟩ := o2 _ _ (by rw [hq]; exact h)
    exact ⟨st, .inr ⟨e, q, _, w', hst, hok, by rw [← hq, ← e1.trans hc1]; exact hval, h⟩⟩

/-- **C86** (quantifiers) The same for grammars whose rules build meanings with negation, quantifiers and comparisons, as in C77: with enough steps and
depth, entering a text that can be derived gives the right answers, or raises the exception that the query raises. -/
theorem C86_quantified (K : KnowledgeBase W ar tables rs) (hrr : HeadsBound rs) (hcore : ∀ p ∈ coreNames, NotDefined K.others K.world p)
    {R : List String} {kinds : Str → Nat → Kind} {spec : GRule Attachment → List Value → RuleParts}
    {V : Str → Nat → Value → Prop} (hV : ∀ p k v d, V p k v → V p k (unify d v))
    (E : Oracles) (rules : List (GRule Attachment)) (ok : RulesOk rules) (hspec : ∀ r, Usable rules r → SpecRule ar R kinds spec r)
    (hroot : ∀ r, Usable rules r → r.ante.predicate = cRoot → ∃ s, kinds cRoot r.ante.args.length = .phrase s ∧ RootSig s)
    (hret : ∀ r, Usable rules r → ReturnsRule V r) (wf : WellFounded (UnitStep rules))
    {rank : String → Nat} (hrank : Descends (program tables rs) rank)
    (text : Str) (hl : LowerOk E (normalizeSpace text))
    {fuel' depth' : Nat} (texts : List Str) {s : Session W} (hg : s.grammar = parseHistory E fuel' depth' (Grammar.new rules) texts)
    (hw : s.world = K.world) (hd : ∃ d, WholeDerivation E rules (normalizeSpace text) d) :
    ∃ N, ∀ fuel depth n, N ≤ fuel → N ≤ depth → N ≤ n → ∃ st,
      (∃ t d bs, enter (solverAt K.modules n).inSession (sentencePipeline E fuel depth none (solverAt K.modules n)) (Request.new text, s) =
          .ok st (some (.executed (.rows bs))) ∧
        WholeDerivation E rules (normalizeSpace text) d ∧ TreesOf Eq [d] [t] ∧
        (∀ d', WholeDerivation E rules (normalizeSpace text) d' → ∃ t', TreesOf (fun r r' => r.equals r' = true) [d'] [t'] ∧
          (t' = t ∨ RankedBefore t t')) ∧
        st.2.world = K.world ∧ st.2.grammar = parseHistory E fuel' depth' (Grammar.new rules) (texts ++ [normalizeSpace text]) ∧
        (bs ≠ [] ↔ ∃ vals : List Value, vals.length = t.rule.ante.args.length ∧ (∀ v ∈ vals, Plain v) ∧
          SentenceTrue (program tables rs) spec t vals) ∧
        ∀ vals : List Value, vals.length = t.rule.ante.args.length → (∀ v ∈ vals, Plain v) →
          ((∃ b ∈ bs, Fits b ((List.range t.rule.ante.args.length).map fun j => genName (s.gen.number + j + 1)) vals) ↔
            SentenceTrue (program tables rs) spec t vals)) ∨
      ∃ e, enter (solverAt K.modules n).inSession (sentencePipeline E fuel depth none (solverAt K.modules n)) (Request.new text, s) = .err st e := by
  obtain ⟨N, h⟩ := quantified_run K hrr hcore hV E rules ok hspec hroot hret wf hrank text hl texts hg hw hd
  refine ⟨N, fun fuel depth n h1 h2 h3 => ?_⟩
  obtain ⟨st, h | ⟨e, _, _, _, h, _⟩⟩ := h fuel depth n h1 h2 h3
  · exact ⟨st, .inl h⟩
  · exact ⟨st, .inr ⟨e, h⟩⟩

/-- **C86** (not understood) If a text has no derivation, then with enough steps the parser returns an error, and entering the text stores this
error: it returns nothing when storing it returns, and raises what storing it raises. -/
theorem C86_not_understood (E : Oracles) (rules : List (GRule Attachment)) (ok : RulesOk rules) (wf : WellFounded (UnitStep rules))
    (text : Str) (hl : LowerOk E (normalizeSpace text)) {fuel' depth' : Nat} (texts : List Str) {s : Session W}
    (hg : s.grammar = parseHistory E fuel' depth' (Grammar.new rules) texts)
    (hd : ∀ d, ¬ WholeDerivation E rules (normalizeSpace text) d) :
    ∃ N e, e ≠ ParseError.none ∧ ∀ fuel depth, N ≤ fuel → N ≤ depth → ∀ (api : SolverApi W) optimizer,
      match api.solve (.list [.tuple [.str "store", .list [.tuple [.str "output_type", .str e.type],
        .tuple (.str ("output_" ++ e.type) :: e.args)]]]) [] s.world with
      | .ok w _ => ∃ st, enter api.inSession (sentencePipeline E fuel depth optimizer api) (Request.new text, s) = .ok st none ∧ st.2.world = w
      | .err w x => ∃ st, enter api.inSession (sentencePipeline E fuel depth optimizer api) (Request.new text, s) = .err st x ∧ st.2.world = w
      | .oof => True := by
  obtain ⟨N, ⟨trees, e⟩, hN⟩ := parse_settles E rules ok wf (normalizeSpace text) hl
  have hb : ∀ fuel depth, N ≤ fuel → N ≤ depth → (basicParse E fuel depth (Grammar.new rules) text).1 = .ok (sortTrees trees, e) := by
    intro fuel depth h1 h2
    simp only [basicParse]
    rw [hN fuel depth h1 h2]
    rfl
  have hperm := C38_permutation trees
  have hnil : sortTrees trees = [] := by
    cases hs : sortTrees trees with
    | nil => rfl
    | cons t rest =>
      rw [hs] at hperm
      obtain ⟨c, d, hc1, hc2, hd', _⟩ := C29_derivation E rules ok _ hl N N trees _ (hN N N (Nat.le_refl _) (Nat.le_refl _)) t (hperm.mem_iff.1 (by simp))
      exact absurd ⟨c, hc1, hc2, hd'⟩ (hd d)
  rw [hnil] at hb
  have hty : e.type ≠ "" := fun h => ((parse_trees (hb N N (Nat.le_refl _) (Nat.le_refl _))).1.1 h) rfl
  refine ⟨N, e, by rintro rfl; exact hty rfl, fun fuel depth h1 h2 api optimizer => ?_⟩
  have hp : (basicParse E fuel depth s.grammar text).1 = .ok ([], e) := by
    rw [hg, C33_no_memory_block]
    exact hb fuel depth h1 h2
  have hparse : (basicParser 0 E fuel depth).process (Request.new (P := Product (ParseTree Attachment)) text) s =
      .ok { s with grammar := (basicParse E fuel depth s.grammar text).2 } ⟨[], e.type, e.args⟩ := by
    simp only [basicParser]
    cases hb : basicParse E fuel depth s.grammar (Request.new (P := Product (ParseTree Attachment)) text).text with
    | mk o gr =>
      have hb' : basicParse E fuel depth s.grammar text = (o, gr) := hb
      rw [hb'] at hp ⊢
      simp only at hp
      subst hp
      rfl
  have hrun : runBlocks (sentencePipeline E fuel depth optimizer api) (Request.new text, s) =
      .ok (Request.new text, { s with grammar := (basicParse E fuel depth s.grammar text).2 }) ⟨e.type, e.args⟩ := by
    rw [sentencePipeline, runBlocks]
    simp only [Block.process]
    have h1 : execProcess (basicParser 0 E fuel depth) (Request.new text, s) = .ok (Request.new text, { s with grammar := (basicParse E fuel depth s.grammar text).2 })
        ⟨[], e.type, e.args⟩ := by simp only [execProcess]; exact onWorld_ok.2 ⟨_, hparse, rfl⟩
    rw [findOne, M.bind_ok h1, if_pos hty]
    rfl
  have henter : enter api.inSession (sentencePipeline E fuel depth optimizer api) (Request.new text, s) =
      (onWorld (api.inSession.solve (.list [.tuple [.str "store", .list [.tuple [.str "output_type", .str e.type],
        .tuple (.str ("output_" ++ e.type) :: e.args)]]]) []) >>= fun _ => pure none)
        ((Request.new text, { s with grammar := (basicParse E fuel depth s.grammar text).2 }) : Request (Product (ParseTree Attachment)) × Session W) := by
    rw [sentencePipeline] at hrun
    simp only [enter, sentencePipeline, List.getLast?_cons_cons, List.getLast?_singleton]
    rw [M.bind_ok hrun, if_pos hty]
  rw [henter]
  simp only [M.bind_run, onWorld, SolverApi.inSession, inWorld]
  cases api.solve (.list [.tuple [.str "store", .list [.tuple [.str "output_type", .str e.type],
        .tuple (.str ("output_" ++ e.type) :: e.args)]]]) [] s.world with
  | ok w o => exact ⟨_, rfl, rfl⟩
  | err w x => exact ⟨_, rfl, rfl⟩
  | oof => trivial

end

namespace Ex

/-! ## Examples: the family of C77, with a grammar of questions and the grammar of C77 -/

/-- The rules refer to the facts only. -/
def kinRank (p : String) : Nat := if p = "have" then 0 else 1

theorem kin_rank : Descends (program [kinTables] kinRules) kinRank := by
  refine .of_rank ?_
  decide +kernel

/-- A list of atoms. -/
def IsAtoms (v : Value) : Prop := ∃ atoms, v = .list atoms ∧ ∀ a ∈ atoms, ∃ xs, a = .tuple xs

theorem unifyList_tuples (d : Dict String) : ∀ {atoms : List Value}, (∀ a ∈ atoms, ∃ xs, a = .tuple xs) → ∀ a ∈ unifyList d atoms, ∃ xs, a = .tuple xs
  | [], _, a, ha => by simp [unifyList] at ha
  | b :: atoms, h, a, ha => by
    simp only [unifyList, List.mem_cons] at ha
    rcases ha with rfl | ha
    · obtain ⟨xs, rfl⟩ := h b (by simp)
      exact ⟨unifyList d xs, by simp [unify]⟩
    · exact unifyList_tuples d (fun a ha => h a (by simp [ha])) a ha

theorem replaceIn_tuples (t : String) (rep : List Value) :
    ∀ {atoms : List Value}, (∀ a ∈ atoms, ∃ xs, a = .tuple xs) → ∀ a ∈ replaceIn (.str t) rep atoms, ∃ xs, a = .tuple xs
  | [], _, a, ha => by simp [replaceIn] at ha
  | b :: atoms, h, a, ha => by
    obtain ⟨xs, rfl⟩ := h b (by simp)
    simp only [replaceIn, reduceCtorEq, if_false, List.mem_cons] at ha
    rcases ha with rfl | ha
    · exact ⟨replaceIn (.str t) rep xs, by simp [replaceOne]⟩
    · exact replaceIn_tuples t rep (fun a ha => h a (by simp [ha])) a ha

theorem IsAtoms.unify {v : Value} (h : IsAtoms v) (d : Dict String) : IsAtoms (unify d v) := by
  obtain ⟨atoms, rfl, h⟩ := h
  exact ⟨unifyList d atoms, by simp [Verif.unify], unifyList_tuples d h⟩

/-- `p(A) -> 'kid ' /[a-z]+/`, meaning `have(name, A)`. -/
def hasRule : GRule Attachment := GRule.new whoOracles.ruleHash (whoP 'A') [exW ['k', 'i', 'd', ' '], exRegexp ['x']]
  (.user { sem := some fun vs => match vs with
    | [name] => .ok (.list [.tuple [.str "have", name, .var "A"]])
    | _ => .error .typeError })

/-- `p(A) -> 'adult ' p(A)`, meaning that of `p(A)` and `parent(A)`. -/
def adultRule : GRule Attachment := GRule.new whoOracles.ruleHash (whoP 'A') [exW ['a', 'd', 'u', 'l', 't', ' '], whoP 'A']
  (.user { sem := some fun vs => match vs with
    | [.list p] => .ok (.list (p ++ [.tuple [.str "parent", .var "A"]]))
    | _ => .error .typeError })

def askRules : List (GRule Attachment) := [whoRule, hasRule, adultRule]

/-- The atoms that the rules add. -/
def askOwn (r : GRule Attachment) (ws : List Value) : Query :=
  if r.cons = hasRule.cons then (match ws with
    | [name] => [("have", [name, .var "A"])]
    | _ => []) else if r.cons = adultRule.cons then [("parent", [.var "A"])] else []

theorem ask_ok : RulesOk askRules := by
  constructor <;> decide +kernel

theorem ask_usable {r : GRule Attachment} (h : Usable askRules r) : r = whoRule ∨ r = hasRule ∨ r = adultRule := by
  obtain ⟨r0, h0, hv⟩ := h
  have key : ∀ r0 ∈ askRules, ruleVariants r0 = [r0] := by
    intro r0 h0
    apply C36_no_optional
    simp only [askRules, List.mem_cons, List.not_mem_nil, or_false] at h0
    rcases h0 with rfl | rfl | rfl <;> decide
  rw [key r0 h0, List.mem_singleton] at hv
  subst hv
  simpa [askRules] using h0

theorem askOwn_who (ws : List Value) : askOwn whoRule ws = [] := rfl
theorem askOwn_adult (ws : List Value) : askOwn adultRule ws = [("parent", [.var "A"])] := rfl

theorem askOwn_has (ws : List Str) : askOwn hasRule (wordValues ws) = [] ∨ ∃ w, ws = [w] ∧
    askOwn hasRule (wordValues ws) = [("have", [.str (String.ofList w), .var "A"])] := by
  match ws with
  | [] => exact .inl rfl
  | [w] => exact .inr ⟨w, rfl, rfl⟩
  | _ :: _ :: _ => exact .inl rfl

theorem ask_conj (r : GRule Attachment) (h : Usable askRules r) : ConjRule kinAr askOwn r := by
  rcases ask_usable h with rfl | rfl | rfl
  · refine ⟨by decide +kernel, by decide +kernel, ?_, ?_, ?_, ?_, rfl, fun _ => rfl⟩
    · intro ws; rw [askOwn_who]; simp [QueryOk]
    · intro ws; rw [askOwn_who]; simp [ConstsClosed]
    · intro ws; rw [askOwn_who]; simp [queryVars]
    · intro f hf qs ws v hqs hws hv
      have : qs.length = 1 := hqs
      match qs, this with
      | [q], _ =>
        cases hf
        cases hv
        exact ⟨q, rfl, fun a => by simp [askOwn_who]⟩
  · refine ⟨by decide +kernel, by decide +kernel, ?_, ?_, ?_, ?_, rfl, fun _ => rfl⟩
    · intro ws
      rcases askOwn_has ws with e | ⟨w, _, e⟩ <;> rw [e] <;> simp [QueryOk, ArgsOk, kinAr, Value.isVar, Plain, legal]
    · intro ws
      rcases askOwn_has ws with e | ⟨w, _, e⟩ <;> rw [e] <;> simp [ConstsClosed, Value.isVar, deepVars]
    · intro ws
      rcases askOwn_has ws with e | ⟨w, _, e⟩ <;> rw [e]
      · simp [queryVars]
      · have : queryVars [("have", [.str (String.ofList w), .var "A"])] = ["A"] := rfl
        rw [this]; decide +kernel
    · intro f hf qs ws v hqs hws hv
      have h1 : qs.length = 0 := hqs
      have h2 : ws.length = 1 := hws
      match qs, h1, ws, h2 with
      | [], _, [w], _ =>
        cases hf
        cases hv
        exact ⟨[("have", [.str (String.ofList w), .var "A"])], rfl, fun a => by simp [wordValues, askOwn]⟩
  · refine ⟨by decide +kernel, by decide +kernel, ?_, ?_, ?_, ?_, rfl, fun _ => rfl⟩
    · intro ws; rw [askOwn_adult]; simp [QueryOk, ArgsOk, kinAr, Value.isVar]
    · intro ws; rw [askOwn_adult]; simp [ConstsClosed, Value.isVar]
    · intro ws; rw [askOwn_adult]; decide +kernel
    · intro f hf qs ws v hqs hws hv
      have : qs.length = 1 := hqs
      match qs, this with
      | [q], _ =>
        cases hf
        cases hv
        exact ⟨q ++ [("parent", [.var "A"])], by simp [toQuery, toAtom], fun a => by simp [askOwn_adult, or_comm]⟩

theorem ask_returns (r : GRule Attachment) (h : Usable askRules r) : ReturnsRule (fun _ _ => IsAtoms) r := by
  rcases ask_usable h with rfl | rfl | rfl
  · refine ⟨_, rfl, fun vs hvs => ?_⟩
    obtain ⟨_, _, rfl, ⟨p, rfl, hp⟩, rfl⟩ : ∃ v us, vs = v :: us ∧ IsAtoms v ∧ us = [] := hvs
    exact ⟨_, rfl, ⟨p, rfl, hp⟩, fun atoms e => by cases e; exact hp⟩
  · refine ⟨_, rfl, fun vs hvs => ?_⟩
    obtain ⟨w, _, rfl, rfl⟩ : ∃ w us, vs = .str (String.ofList w) :: us ∧ us = [] := hvs
    exact ⟨_, rfl, ⟨_, rfl, by simp⟩, fun atoms e => by cases e; simp⟩
  · refine ⟨_, rfl, fun vs hvs => ?_⟩
    obtain ⟨_, _, rfl, ⟨p, rfl, hp⟩, rfl⟩ : ∃ v us, vs = v :: us ∧ IsAtoms v ∧ us = [] := hvs
    have h : ∀ a ∈ p ++ [.tuple [.str "parent", .var "A"]], ∃ xs, a = .tuple xs := by
      intro a ha
      simp only [List.mem_append, List.mem_singleton] at ha
      rcases ha with ha | rfl
      · exact hp a ha
      · exact ⟨_, rfl⟩
    exact ⟨_, rfl, ⟨_, rfl, h⟩, fun atoms e => by cases e; exact h⟩

theorem ask_unit : WellFounded (UnitStep askRules) := by
  refine unit_wf (fun _ => 0) ?_
  have h : ∀ r ∈ askRules, ∀ v ∈ ruleVariants r, v.cons.length = 2 := by decide +kernel
  intro r hr v hv c hc
  have := h r hr v hv
  rw [hc] at this
  simp at this

def askText : Str := ['w', 'h', 'o', ' ', 'a', 'd', 'u', 'l', 't', ' ', 'k', 'i', 'd', ' ', 'b', 'o', 'b']

theorem ask_runs : answersOf (enter (solverAt kinKB.modules 12).inSession
      (sentencePipeline whoOracles 100 20 none (solverAt kinKB.modules 12)) (Request.new askText, ⟨Grammar.new askRules, ⟨0, []⟩, kinKB.world⟩)) =
    some [] := by decide +kernel

theorem ask_derivable : ∃ d, WholeDerivation whoOracles askRules (normalizeSpace askText) d := by
  obtain ⟨st, h⟩ := answersOf_some ask_runs
  obtain ⟨_, h⟩ := C70_text_to_answers kinKB kin_heads whoOracles askRules ask_ok ask_conj askText (by intro i; simp [whoOracles]) 100 20 12
    (.inl rfl) (fuel' := 20) (depth' := 20) [] rfl rfl h
  rcases h with ⟨h, _⟩ | ⟨_, d, _, h1, _⟩
  · cases h
  · exact ⟨d, h1⟩

/-- **C86** applies: the question has an answer, with any numbers of steps from some number on. -/
example : ∃ N, ∀ fuel depth n, N ≤ fuel → N ≤ depth → N ≤ n → ∃ st bs, enter (solverAt kinKB.modules n).inSession
    (sentencePipeline whoOracles fuel depth none (solverAt kinKB.modules n)) (Request.new askText, ⟨Grammar.new askRules, ⟨0, []⟩, kinKB.world⟩) =
      .ok st (some (.executed (.rows bs))) := by
  obtain ⟨N, h⟩ := C86_answered kinKB kin_heads (V := fun _ _ => IsAtoms) (fun _ _ _ d h => h.unify d) whoOracles askRules ask_ok ask_conj ask_returns ask_unit
    kin_rank askText (by intro i; simp [whoOracles]) (.inl rfl) (fuel' := 20) (depth' := 20) [] (s := ⟨Grammar.new askRules, ⟨0, []⟩, kinKB.world⟩) rfl rfl ask_derivable
  refine ⟨N, fun fuel depth n h1 h2 h3 => ?_⟩
  obtain ⟨st, t, d, bs, h, _⟩ := h fuel depth n h1 h2 h3
  exact ⟨st, bs, h⟩

/-- A template with these slots and a body of atoms. -/
def IsTemplate (names : List String) (v : Value) : Prop := ∃ body, v = .tmpl (names.map slot) body ∧ ∀ a ∈ body, ∃ xs, a = .tuple xs

/-- What the meanings of the categories are. -/
def kinValues (p : Str) (_ : Nat) (v : Value) : Prop :=
  if p = cNumber then ∃ r, v = .num r
  else if p = cDet ∨ p = cQdet then IsTemplate [sRange, sBody] v
  else if p = cNp ∨ p = cQnp then IsTemplate [sBody] v
  else IsAtoms v

theorem kinValues_unify (p : Str) (k : Nat) (v : Value) (d : Dict String) (h : kinValues p k v) : kinValues p k (unify d v) := by
  have ht : ∀ names, IsTemplate names v → IsTemplate names (unify d v) := by
    rintro names ⟨body, rfl, hb⟩
    exact ⟨unifyList d body, by simp [unify], unifyList_tuples d hb⟩
  simp only [kinValues] at h ⊢
  split at h
  · obtain ⟨r, rfl⟩ := h
    simp [*, unify]
  · split at h
    · rename_i h1 h2; rw [if_neg h1, if_pos h2]; exact ht _ h
    · split at h
      · rename_i h1 h2 h3; rw [if_neg h1, if_neg h2, if_pos h3]; exact ht _ h
      · rename_i h1 h2 h3; rw [if_neg h1, if_neg h2, if_neg h3]; exact h.unify d

theorem apply_one {np : Value} {vs : List Value} (h : IsTemplate [sBody] np) : ∃ body, applyTemplate np [vs] = .ok body ∧ ∀ a ∈ body, ∃ xs, a = .tuple xs := by
  obtain ⟨body, rfl, h⟩ := h
  exact ⟨_, rfl, replaceIn_tuples _ _ h⟩

theorem apply_two {det : Value} {us vs : List Value} (h : IsTemplate [sRange, sBody] det) :
    ∃ body, applyTemplate det [us, vs] = .ok body ∧ ∀ a ∈ body, ∃ xs, a = .tuple xs := by
  obtain ⟨body, rfl, h⟩ := h
  exact ⟨_, rfl, replaceIn_tuples _ _ (replaceIn_tuples _ _ h)⟩

theorem makeNp_returns {vs : List Value} (h : ∃ v us, vs = v :: us ∧ IsTemplate [sRange, sBody] v ∧ ∃ w us', us = w :: us' ∧ IsAtoms w ∧ us' = []) :
    ∃ v, makeNp vs = .ok v ∧ IsTemplate [sBody] v ∧ ∀ atoms, v = .list atoms → ∀ a ∈ atoms, ∃ xs, a = .tuple xs := by
  obtain ⟨v, _, rfl, hv, _, _, rfl, ⟨atoms, rfl, ha⟩, rfl⟩ := h
  obtain ⟨body, hb, hbt⟩ := apply_two (us := atoms) (vs := [.str sBody]) hv
  exact ⟨.tmpl [slot sBody] body, by simp [makeNp, hb, Except.map], ⟨body, rfl, hbt⟩, fun _ e => by cases e⟩

theorem kin_returns (r : GRule Attachment) (h : Usable kinGrammar r) : ReturnsRule kinValues r := by
  have h := kin_usable h
  simp only [kinGrammar, List.mem_cons, List.not_mem_nil, or_false] at h
  rcases h with rfl | rfl | rfl | rfl | rfl | rfl | rfl | rfl | rfl | rfl | rfl | rfl
  · refine ⟨applyOne, rfl, fun vs hvs => ?_⟩
    obtain ⟨np, _, rfl, hnp, _, _, rfl, ⟨vp, rfl, _⟩, rfl⟩ : ∃ v us, vs = v :: us ∧ IsTemplate [sBody] v ∧ ∃ w us', us = w :: us' ∧ IsAtoms w ∧ us' = [] := hvs
    obtain ⟨body, hb, hbt⟩ := apply_one (vs := vp) hnp
    exact ⟨.list body, by simp [applyOne, hb, Except.map], ⟨body, rfl, hbt⟩, fun _ e => by cases e; exact hbt⟩
  · refine ⟨applyOther, rfl, fun vs hvs => ?_⟩
    obtain ⟨_, _, rfl, ⟨tv, rfl, _⟩, np, _, rfl, hnp, rfl⟩ : ∃ v us, vs = v :: us ∧ IsAtoms v ∧ ∃ w us', us = w :: us' ∧ IsTemplate [sBody] w ∧ us' = [] := hvs
    obtain ⟨body, hb, hbt⟩ := apply_one (vs := tv) hnp
    exact ⟨.list body, by simp [applyOther, hb, Except.map], ⟨body, rfl, hbt⟩, fun _ e => by cases e; exact hbt⟩
  · refine ⟨_, rfl, fun vs hvs => ?_⟩
    obtain rfl : vs = [] := hvs
    exact ⟨_, rfl, ⟨_, rfl, by simp⟩, fun atoms e => by cases e; simp⟩
  · exact ⟨makeNp, rfl, fun vs hvs => makeNp_returns hvs⟩
  · exact ⟨makeNp, rfl, fun vs hvs => makeNp_returns hvs⟩
  · refine ⟨same, rfl, fun vs hvs => ?_⟩
    obtain ⟨_, _, rfl, ⟨p, rfl, hp⟩, rfl⟩ : ∃ v us, vs = v :: us ∧ IsAtoms v ∧ us = [] := hvs
    exact ⟨_, rfl, ⟨p, rfl, hp⟩, fun atoms e => by cases e; exact hp⟩
  · refine ⟨_, rfl, fun vs hvs => ?_⟩
    obtain rfl : vs = [] := hvs
    exact ⟨everyValue, rfl, ⟨_, rfl, by simp⟩, fun atoms e => by cases e⟩
  · refine ⟨makeNumeral, rfl, fun vs hvs => ?_⟩
    obtain ⟨v, _, rfl, _, rfl⟩ : ∃ v us, vs = v :: us ∧ (∃ r, v = .num r) ∧ us = [] := hvs
    exact ⟨_, rfl, ⟨_, rfl, by simp⟩, fun atoms e => by cases e⟩
  · refine ⟨_, rfl, fun vs hvs => ?_⟩
    obtain rfl : vs = [] := hvs
    exact ⟨.num 2, rfl, ⟨2, rfl⟩, fun atoms e => by cases e⟩
  · refine ⟨_, rfl, fun vs hvs => ?_⟩
    obtain rfl : vs = [] := hvs
    exact ⟨.num 3, rfl, ⟨3, rfl⟩, fun atoms e => by cases e⟩
  · refine ⟨_, rfl, fun vs hvs => ?_⟩
    obtain rfl : vs = [] := hvs
    exact ⟨_, rfl, ⟨_, rfl, by simp⟩, fun atoms e => by cases e; simp⟩
  · refine ⟨_, rfl, fun vs hvs => ?_⟩
    obtain rfl : vs = [] := hvs
    exact ⟨_, rfl, ⟨_, rfl, by simp⟩, fun atoms e => by cases e; simp⟩

theorem kin_unit : WellFounded (UnitStep kinGrammar) := by
  refine unit_wf (fun x => if x.2.2 = .relation then (if x.1 = cNbar ∨ x.1 = cQdet then 2 else 1) else 0) ?_
  have h : ∀ r ∈ kinGrammar, ∀ v ∈ ruleVariants r, v.cons.all fun c => v.cons.length ≠ 1 ∨
      (if c.syn.2.2 = .relation then (if c.syn.1 = cNbar ∨ c.syn.1 = cQdet then 2 else 1) else 0) <
        (if v.ante.syn.2.2 = .relation then (if v.ante.syn.1 = cNbar ∨ v.ante.syn.1 = cQdet then 2 else 1) else 0) := by decide +kernel
  intro r hr v hv c hc
  have := h r hr v hv
  rw [hc] at this
  simpa using this

/-- **C86** applies to `every parent has two children`. -/
example : ∃ N, ∀ fuel depth n, N ≤ fuel → N ≤ depth → N ≤ n → ∃ st,
    (∃ bs, enter (solverAt kinKB.modules n).inSession (sentencePipeline whoOracles fuel depth none (solverAt kinKB.modules n))
      (Request.new kinText, ⟨Grammar.new kinGrammar, ⟨0, []⟩, kinKB.world⟩) = .ok st (some (.executed (.rows bs)))) ∨
    ∃ e, enter (solverAt kinKB.modules n).inSession (sentencePipeline whoOracles fuel depth none (solverAt kinKB.modules n))
      (Request.new kinText, ⟨Grammar.new kinGrammar, ⟨0, []⟩, kinKB.world⟩) = .err st e := by
  obtain ⟨_, d, hd, _⟩ := kin_true
  obtain ⟨N, h⟩ := C86_quantified kinKB kin_heads kin_core kinValues_unify whoOracles kinGrammar kin_rulesOk kin_spec kin_root kin_returns kin_unit
    kin_rank kinText (by intro i; simp [whoOracles]) (fuel' := 20) (depth' := 20) [] (s := ⟨Grammar.new kinGrammar, ⟨0, []⟩, kinKB.world⟩) rfl rfl ⟨d, hd⟩
  refine ⟨N, fun fuel depth n h1 h2 h3 => ?_⟩
  obtain ⟨st, ⟨t, d, bs, h, _⟩ | h⟩ := h fuel depth n h1 h2 h3
  · exact ⟨st, .inl ⟨bs, h⟩⟩
  · exact ⟨st, .inr h⟩

/-- A text that is not a sentence: the parser finds no trees. -/
theorem no_derivation : ∀ d, ¬ WholeDerivation whoOracles kinGrammar (normalizeSpace ['h', 'a', 's']) d := by
  have key : (match (parse whoOracles 100 20 (Grammar.new kinGrammar) (normalizeSpace ['h', 'a', 's'])).1 with
    | .ok (ts, _) => ts.isEmpty
    | _ => false) = true := by decide +kernel
  intro d ⟨c, h1, h2, hd⟩
  cases hp : (parse whoOracles 100 20 (Grammar.new kinGrammar) (normalizeSpace ['h', 'a', 's'])).1 with
  | ok r =>
    obtain ⟨ts, e⟩ := r
    rw [hp] at key
    obtain ⟨t, ht, _⟩ := C30_complete whoOracles kinGrammar kin_rulesOk _ (by intro i; simp [whoOracles]) 100 20 ts e hp c h1 h2 d hd
    cases ts with
    | nil => simp at ht
    | cons _ _ => simp at key
  | err e => rw [hp] at key; cases key
  | oof => rw [hp] at key; cases key

/-- **C86** applies to a text that is not a sentence; here no module knows `store`, and the exception of the solver is passed on. -/
example : ∃ N, ∀ fuel depth, N ≤ fuel → N ≤ depth → ∃ st e, enter (solverAt kinKB.modules 5).inSession
    (sentencePipeline whoOracles fuel depth none (solverAt kinKB.modules 5)) (Request.new ['h', 'a', 's'], ⟨Grammar.new kinGrammar, ⟨0, []⟩, kinKB.world⟩) =
      .err st e := by
  obtain ⟨N, e, _, h⟩ := C86_not_understood whoOracles kinGrammar kin_rulesOk kin_unit ['h', 'a', 's'] (by intro i; simp [whoOracles])
    (fuel' := 20) (depth' := 20) [] (s := ⟨Grammar.new kinGrammar, ⟨0, []⟩, kinKB.world⟩) rfl no_derivation
  refine ⟨N, fun fuel depth h1 h2 => ?_⟩
  have h := h fuel depth h1 h2 (solverAt kinKB.modules 5) none
  have hs : ∃ x, (solverAt kinKB.modules 5).solve (.list [.tuple [.str "store", .list [.tuple [.str "output_type", .str e.type],
      .tuple (.str ("output_" ++ e.type) :: e.args)]]]) [] kinKB.world = .err kinKB.world x := ⟨_, rfl⟩
  obtain ⟨x, hs⟩ := hs
  simp only [hs] at h
  obtain ⟨st, h, _⟩ := h
  exact ⟨st, x, h⟩

end Ex

end Verif

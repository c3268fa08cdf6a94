import Verif.Processors
import Verif.Props.Meaning
import Verif.Props.Earley
import Verif.Props.EarleyTrees
import Verif.Props.Pipeline

/-!
# C70: from text to answers
-/

namespace Verif

section
variable {W : Type}

theorem inWorld_ok {α : Type} {m : M W α} {s s' : Session W} {a : α} : inWorld m s = .ok s' a ↔ ∃ w, m s.world = .ok w a ∧ s' = { s with world := w } := by
  simp only [inWorld]
  cases h : m s.world with
  | ok w b =>
    simp only [Res.ok.injEq]
    constructor
    · rintro ⟨rfl, rfl⟩; exact ⟨w, ⟨rfl, rfl⟩, rfl⟩
    · rintro ⟨_, ⟨rfl, rfl⟩, rfl⟩; exact ⟨rfl, rfl⟩
  | err w e => simp
  | oof => simp

theorem inGen_ok {α : Type} {m : M Gen α} {s s' : Session W} {a : α} : inGen m s = .ok s' a ↔ ∃ g, m s.gen = .ok g a ∧ s' = { s with gen := g } := by
  simp only [inGen]
  cases h : m s.gen with
  | ok w b =>
    simp only [Res.ok.injEq]
    constructor
    · rintro ⟨rfl, rfl⟩; exact ⟨w, ⟨rfl, rfl⟩, rfl⟩
    · rintro ⟨_, ⟨rfl, rfl⟩, rfl⟩; exact ⟨rfl, rfl⟩
  | err w e => simp
  | oof => simp

theorem onWorld_ok {A α : Type} {m : M W α} {s s' : A × W} {a : α} : onWorld m s = .ok s' a ↔ ∃ w, m s.2 = .ok w a ∧ s' = (s.1, w) := by
  simp only [onWorld]
  cases h : m s.2 with
  | ok w b =>
    simp only [Res.ok.injEq]
    constructor
    · rintro ⟨rfl, rfl⟩; exact ⟨w, ⟨rfl, rfl⟩, rfl⟩
    · rintro ⟨_, ⟨rfl, rfl⟩, rfl⟩; exact ⟨rfl, rfl⟩
  | err w e => simp
  | oof => simp

/-- A `TryFirst` block whose processor gives one product. -/
theorem tryFirst_one {P : Type} {p : Processor P W} {next : M (Request P × W) BlockResult} {s s' : Request P × W} {r : BlockResult}
    (h : tryFirst p next s = .ok s' r) (hone : ∀ w a, p.process s.1 s.2 = .ok w a → ∃ x, a = ⟨[x], "", []⟩) :
    ∃ w x, p.process s.1 s.2 = .ok w ⟨[x], "", []⟩ ∧ next ((s.1.setAlternatives p.id [x]).setCurrent p.id x, w) = .ok s' r := by
  simp only [tryFirst, M.bind_eq_ok, execProcess] at h
  obtain ⟨s1, res, h1, h⟩ := h
  rw [onWorld_ok] at h1
  obtain ⟨w, h1, rfl⟩ := h1
  obtain ⟨x, rfl⟩ := hone w res h1
  refine ⟨w, x, h1, ?_⟩
  simp only [ne_eq, not_true_eq_false, if_false, M.bind_eq_ok, setAlternativeProducts, setCurrentProduct, M.modify_run, Res.ok.injEq] at h
  obtain ⟨_, _, ⟨rfl, _⟩, _, _, ⟨rfl, _⟩, s2, r2, h3, h4⟩ := h
  rw [M.pure_eq_ok] at h4
  obtain ⟨rfl, rfl⟩ := h4
  exact h3

theorem writeAll_inSession {api : SolverApi W} {as : List Value} {s s' : Session W} (h : writeAll api.inSession as s = .ok s' ()) :
    ∃ w, writeAll api as s.world = .ok w () ∧ s' = { s with world := w } := by
  induction as generalizing s with
  | nil =>
    simp only [writeAll, M.pure_eq_ok] at h
    obtain ⟨rfl, _⟩ := h
    exact ⟨s.world, rfl, rfl⟩
  | cons a as ih =>
    simp only [writeAll, M.bind_eq_ok] at h
    obtain ⟨s1, u, h1, h2⟩ := h
    obtain ⟨w, k1, rfl⟩ := inWorld_ok.1 h1
    obtain ⟨w', h3, rfl⟩ := ih h2
    refine ⟨w', ?_, rfl⟩
    simp only [writeAll, M.bind_eq_ok]
    exact ⟨w, u, k1, h3⟩

/-- The error type of the parser is empty only when there are trees. -/
theorem parse_trees {E : Oracles} {fuel depth : Nat} {g : Grammar Attachment} {text : Str} {trees : List (ParseTree Attachment)} {e : ParseError}
    (h : (basicParse E fuel depth g text).1 = .ok (trees, e)) : (e.type = "" ↔ trees ≠ []) ∧ (trees ≠ [] → e = .none) := by
  simp only [basicParse, parse, parseWith] at h
  cases hc : buildChart E fuel (addStartRules E g) (normalizeSpace text) with
  | err e => rw [hc] at h; simp [Out.bind] at h
  | oof => rw [hc] at h; simp [Out.bind] at h
  | ok chart =>
    rw [hc] at h
    simp only [Out.bind] at h
    cases hx : extractRoots E depth chart (normalizeSpace text).length with
    | err e => rw [hx] at h; simp at h
    | oof => rw [hx] at h; simp at h
    | ok roots =>
      rw [hx] at h
      simp only [Out.ok.injEq, Prod.mk.injEq] at h
      obtain ⟨h1, h2⟩ := h
      have hperm := C38_permutation roots
      rw [h1] at hperm
      cases roots with
      | nil =>
        have : trees = [] := List.Perm.eq_nil hperm
        subst this
        simp only [List.length_nil, if_true] at h2
        refine ⟨?_, by simp⟩
        rw [← h2]
        split
        · simp [ParseError.type]
        · split <;> simp [ParseError.type]
      | cons r rs =>
        have : trees ≠ [] := by rintro rfl; have := hperm.length_eq; simp at this
        simp only [List.length_cons, Nat.add_eq_zero_iff, Nat.one_ne_zero, and_false, if_false] at h2
        exact ⟨by simp [← h2, ParseError.type, this], fun _ => h2.symm⟩

/-- The composer and the executor, on the current parse tree. -/
theorem compose_execute {optimizer : Option (List (Module W))} {api : SolverApi W}
    {req : Request (Product (ParseTree Attachment))} {s : Session W} {t : ParseTree Attachment} (ht : req.current 0 = some (.parse t))
    {st : Request (Product (ParseTree Attachment)) × Session W} {r : BlockResult}
    (h : runBlocks [⟨.tryFirst, semanticComposer 1 0 optimizer⟩, ⟨.tryFirst, atomExecutor 2 1 api.inSession⟩] (req, s) = .ok st r) :
    r.errorType = "" ∧ ∃ g roots c w1 w2 w3 forms o out, composeSentence t s.gen = .ok g (roots, c) ∧
      composerForms optimizer c.sem roots s.world = .ok w1 forms ∧ writeAll api c.inferences w1 = .ok w2 () ∧
      api.solve (.list c.executable) [] w2 = .ok w3 o ∧
      api.solve (ComposerProduct.lastIteration ⟨forms, c.inferences, .list c.executable, roots⟩) [] w3 = .ok st.2.world out ∧
      st.2.grammar = s.grammar ∧ st.2.gen = g ∧ st.1.current 1 = some (.composed ⟨forms, c.inferences, .list c.executable, roots⟩) ∧
      st.1.current 2 = some (.executed out) := by
  simp only [runBlocks, Block.process] at h
  have hcomp : ∀ w a, (semanticComposer 1 0 optimizer).process req s = .ok w a → ∃ g roots c w1 forms,
      composeSentence t s.gen = .ok g (roots, c) ∧ composerForms optimizer c.sem roots s.world = .ok w1 forms ∧
      w = { s with gen := g, world := w1 } ∧ a = ⟨[.composed ⟨forms, c.inferences, .list c.executable, roots⟩], "", []⟩ := by
    intro w a hp
    simp only [semanticComposer, ht, M.bind_eq_ok, M.pure_eq_ok] at hp
    obtain ⟨s1, p, h1, s2, forms, h2, rfl, rfl⟩ := hp
    obtain ⟨g, k1, rfl⟩ := inGen_ok.1 h1
    obtain ⟨w1, k2, rfl⟩ := inWorld_ok.1 h2
    exact ⟨g, p.1, p.2, w1, forms, k1, k2, rfl, rfl⟩
  obtain ⟨s1, x, hp, h⟩ := tryFirst_one h (fun w a hp => by
    obtain ⟨g, roots, c, w1, forms, _, _, _, rfl⟩ := hcomp w a hp
    exact ⟨_, rfl⟩)
  obtain ⟨g, roots, c, w1, forms, hc, hf, rfl, hx⟩ := hcomp _ _ hp
  simp only [ProcResult.mk.injEq, List.cons.injEq, and_true] at hx
  subst hx
  have hexec : ∀ (req' : Request (Product (ParseTree Attachment))) (s0 : Session W) w a,
      req'.current 1 = some (.composed ⟨forms, c.inferences, .list c.executable, roots⟩) →
      (atomExecutor 2 1 api.inSession).process req' s0 = .ok w a → ∃ w2 w3 w4 o out,
      writeAll api c.inferences s0.world = .ok w2 () ∧ api.solve (.list c.executable) [] w2 = .ok w3 o ∧
      api.solve (ComposerProduct.lastIteration ⟨forms, c.inferences, .list c.executable, roots⟩) [] w3 = .ok w4 out ∧
      w = { s0 with world := w4 } ∧ a = ⟨[.executed out], "", []⟩ := by
    intro req' s0 w a hcur hp
    simp only [atomExecutor, hcur, M.bind_eq_ok, M.pure_eq_ok] at hp
    obtain ⟨s1, _, h1, s2, o, h2, s3, out, h3, rfl, rfl⟩ := hp
    obtain ⟨w2, k1, rfl⟩ := writeAll_inSession h1
    obtain ⟨w3, k2, rfl⟩ := inWorld_ok.1 h2
    obtain ⟨w4, k3, rfl⟩ := inWorld_ok.1 h3
    exact ⟨w2, w3, w4, o, out, k1, k2, k3, rfl, rfl⟩
  have hcur : ((req.setAlternatives 1 [.composed ⟨forms, c.inferences, .list c.executable, roots⟩]).setCurrent 1
      (.composed ⟨forms, c.inferences, .list c.executable, roots⟩)).current 1 = some (.composed ⟨forms, c.inferences, .list c.executable, roots⟩) := by
    simp [Request.setCurrent]
  obtain ⟨s2, x, hp2, h⟩ := tryFirst_one h (fun w a hp => by
    obtain ⟨_, _, _, _, _, _, _, _, _, rfl⟩ := hexec _ _ w a hcur hp
    exact ⟨_, rfl⟩)
  obtain ⟨w2, w3, w4, o, out, e1, e2, e3, rfl, hx⟩ := hexec _ _ _ _ hcur hp2
  simp only [ProcResult.mk.injEq, List.cons.injEq, and_true] at hx
  subst hx
  rw [M.pure_eq_ok] at h
  obtain ⟨rfl, rfl⟩ := h
  exact ⟨rfl, g, roots, c, w1, w2, w3, forms, o, out, hc, hf, e1, e2, e3, rfl, rfl, by simp [Request.setCurrent, Request.setAlternatives, semanticComposer, atomExecutor],
    by simp [Request.setCurrent, atomExecutor]⟩

/-- What a sentence goes through: either the parser reports an error, which is stored, or the first of the ranked trees is composed and
executed. -/
theorem enter_sentence {E : Oracles} {fuel depth : Nat} {optimizer : Option (List (Module W))} {api : SolverApi W} {text : Str} {s : Session W}
    {st : Request (Product (ParseTree Attachment)) × Session W} {res : Option (Product (ParseTree Attachment))}
    (h : enter api.inSession (sentencePipeline E fuel depth optimizer api) (Request.new text, s) = .ok st res) :
    st.2.grammar = (basicParse E fuel depth s.grammar text).2 ∧
    ((∃ e, (basicParse E fuel depth s.grammar text).1 = .ok ([], e) ∧ res = none ∧ st.2.gen = s.gen ∧
      ∃ o, api.solve (.list [.tuple [.str "store", .list [.tuple [.str "output_type", .str e.type],
        .tuple (.str ("output_" ++ e.type) :: e.args)]]]) [] s.world = .ok st.2.world o) ∨
    ∃ t rest g roots c w1 w2 w3 forms o out, (basicParse E fuel depth s.grammar text).1 = .ok (t :: rest, .none) ∧
      composeSentence t s.gen = .ok g (roots, c) ∧
      composerForms optimizer c.sem roots s.world = .ok w1 forms ∧ writeAll api c.inferences w1 = .ok w2 () ∧
      api.solve (.list c.executable) [] w2 = .ok w3 o ∧
      api.solve (ComposerProduct.lastIteration ⟨forms, c.inferences, .list c.executable, roots⟩) [] w3 = .ok st.2.world out ∧
      st.2.gen = g ∧ st.1.current 1 = some (.composed ⟨forms, c.inferences, .list c.executable, roots⟩) ∧ res = some (.executed out)) := by
  simp only [enter, sentencePipeline, List.getLast?_cons_cons, List.getLast?_singleton, M.bind_eq_ok] at h
  obtain ⟨st1, r, hrun, h⟩ := h
  rw [runBlocks] at hrun
  simp only [Block.process, findOne, M.bind_eq_ok, execProcess] at hrun
  obtain ⟨st0, pr, hp0, hrun⟩ := hrun
  obtain ⟨s1, hp, rfl⟩ := onWorld_ok.1 hp0
  clear hp0
  simp only [basicParser] at hp
  cases hb : basicParse E fuel depth s.grammar (Request.new (P := Product (ParseTree Attachment)) text).text with
  | mk o gr =>
    rw [hb] at hp
    have hb' : basicParse E fuel depth s.grammar text = (o, gr) := hb
    cases o with
    | err e => simp at hp
    | oof => simp at hp
    | ok p =>
      obtain ⟨trees, e⟩ := p
      simp only [Res.ok.injEq] at hp
      obtain ⟨rfl, rfl⟩ := hp
      obtain ⟨hiff, hnone⟩ := parse_trees (E := E) (fuel := fuel) (depth := depth) (g := s.grammar) (text := text) (by rw [hb'])
      rw [hb']
      dsimp only
      cases trees with
      | nil =>
        have hty : e.type ≠ "" := by rw [Ne, hiff]; simp
        rw [if_pos (by simpa using hty), M.pure_eq_ok] at hrun
        obtain ⟨rfl, rfl⟩ := hrun
        rw [if_pos (by simpa using hty)] at h
        simp only [M.bind_eq_ok, M.pure_eq_ok] at h
        obtain ⟨st2, o, h1, rfl, rfl⟩ := h
        obtain ⟨s2, h2, rfl⟩ := onWorld_ok.1 h1
        obtain ⟨w, h3, rfl⟩ := inWorld_ok.1 h2
        exact ⟨rfl, .inl ⟨e, rfl, rfl, rfl, o, h3⟩⟩
      | cons t rest =>
        have := hnone (by simp)
        subst this
        rw [if_neg (by simp [ParseError.type])] at hrun
        simp only [M.bind_eq_ok, setAlternativeProducts, setCurrentProduct, M.modify_run, Res.ok.injEq, List.map_cons, findOneProducts] at hrun
        obtain ⟨_, _, ⟨rfl, _⟩, _, _, ⟨rfl, _⟩, st2, r2, h2, hrun⟩ := hrun
        obtain ⟨hr2, g, roots, c, w1, w2, w3, forms, o, out, c1, c2, c3, c4, c5, c6, c7, c8', c8⟩ :=
          compose_execute (t := t) (by simp [Request.setCurrent, basicParser]) h2
        rw [if_pos hr2, M.pure_eq_ok] at hrun
        obtain ⟨rfl, rfl⟩ := hrun
        rw [if_neg (by simp [BlockResult.success])] at h
        simp only [M.bind_eq_ok, M.gets_run, Res.ok.injEq] at h
        obtain ⟨st3, pr, ⟨rfl, rfl⟩, h⟩ := h
        have hid : (atomExecutor (T := ParseTree Attachment) 2 1 api.inSession).id = 2 := rfl
        rw [hid, c8] at h
        simp only [M.pure_eq_ok] at h
        obtain ⟨rfl, rfl⟩ := h
        exact ⟨c6, .inr ⟨t, rest, g, roots, c, w1, w2, w3, forms, o, out, rfl, c1, c2, c3, c4, c5, c7, c8', rfl⟩⟩

/-! ## Grammars that conjoin -/

/-- The arguments that the `sem` function of a rule with these consequents is called with, when the relations among them mean `qs` and the
regular expressions have read `ws`: words give nothing. -/
def semArgs : List Constituent → List Query → List Str → List Value
  | [], _, _ => []
  | c :: cs, qs, ws => match c.pos with
    | .word => semArgs cs qs ws
    | .regexp => match ws with
      | [] => semArgs cs qs []
      | w :: ws => .str (String.ofList w) :: semArgs cs qs ws
    | .relation => match qs with
      | [] => semArgs cs [] ws
      | q :: qs => toQuery q :: semArgs cs qs ws

/-- The number of consequents of a kind. -/
def countPos (p : PosType) (cs : List Constituent) : Nat := (cs.filter fun c => decide (c.pos = p)).length

/-- The texts read by regular expressions, as values. -/
def wordValues (ws : List Str) : List Value := ws.map fun w => .str (String.ofList w)

/-- The rule conjoins the atoms `own`, which may depend on the texts read by its regular expressions, with the meanings of its consequents,
and has no `exec` and no `dialog`. -/
structure ConjRule (ar : String → Option Nat) (own : GRule Attachment → List Value → Query) (r : GRule Attachment) : Prop where
  nodup : (argNames r.ante).Nodup
  names : ∀ x ∈ formalNames r, isGenName x = false
  ownOk : ∀ ws, QueryOk ar (own r (wordValues ws))
  ownClosed : ∀ ws, ConstsClosed (own r (wordValues ws))
  ownNames : ∀ ws, ∀ x ∈ queryVars (own r (wordValues ws)), isGenName x = false
  sem : ∀ f, semOf r.sem = some f → ∀ (qs : List Query) (ws : List Str) (v : Value), qs.length = countPos .relation r.cons →
    ws.length = countPos .regexp r.cons → f (semArgs r.cons qs ws) = .ok v →
    ∃ q, v = toQuery q ∧ ∀ a, a ∈ q ↔ a ∈ own r (wordValues ws) ∨ ∃ l ∈ qs, a ∈ l
  noExec : execOf r.sem = none
  noDialog : ∀ sems, dialogOf r.sem sems = .ok []

mutual
/-- No `exec` and no `dialog` below this node. -/
def Silent : ParseTree Attachment → Prop
  | .node _ cs _ r => (cs ≠ [] → execOf r.sem = none ∧ ∀ sems, dialogOf r.sem sems = .ok []) ∧ SilentAll cs
/-- The same for all trees of a list. -/
def SilentAll : List (ParseTree Attachment) → Prop
  | [] => True
  | t :: ts => Silent t ∧ SilentAll ts
end

mutual
theorem compose_silent : ∀ (t : ParseTree Attachment) (inc : List String) (g g' : Gen) (c : Composed), t.children ≠ [] → Silent t →
    compose t inc g = .ok g' c → c.inferences = [] ∧ c.executable = []
  | .node cat cs form r, inc, g, g', c, hne, hs, h => by
    simp only [ParseTree.children] at hne
    simp only [Silent] at hs
    obtain ⟨h1, h2⟩ := hs.1 hne
    rw [compose] at h
    simp only [M.bind_eq_ok] at h
    obtain ⟨g1, d, _, g2, parts, hp, h⟩ := h
    obtain ⟨p1, p2⟩ := composeChildren_silent cs _ _ _ _ _ _ _ hs.2 rfl rfl hp
    cases hf : semOf r.sem with
    | none => simp only [hf, M.throw_run] at h; cases h
    | some f =>
      simp only [hf, M.bind_eq_ok, M.pure_eq_ok] at h
      obtain ⟨_, s, _, _, ex, he, _, di, hd, _, d', _, rfl, rfl⟩ := h
      rw [M.lift_eq_ok] at he hd
      simp only [execResult, h1] at he
      rw [h2] at hd
      obtain ⟨_, he⟩ := he
      obtain ⟨_, hd⟩ := hd
      cases he; cases hd
      simp [p1, p2, unifyList]
theorem composeChildren_silent : ∀ (ts : List (ParseTree Attachment)) (ks : List Constituent) (d : Dict String) (i : Nat) (acc : ChildParts)
    (g g' : Gen) (parts : ChildParts), SilentAll ts → acc.inferences = [] → acc.executable = [] →
    composeChildren ts ks d i acc g = .ok g' parts → parts.inferences = [] ∧ parts.executable = []
  | [], _, _, _, acc, g, g', parts, _, h1, h2, h => by
    simp only [composeChildren, M.pure_eq_ok] at h
    obtain ⟨_, rfl⟩ := h
    exact ⟨h1, h2⟩
  | t :: ts, [], _, _, acc, g, g', parts, _, h1, h2, h => by
    simp only [composeChildren, M.pure_eq_ok] at h
    obtain ⟨_, rfl⟩ := h
    exact ⟨h1, h2⟩
  | .node cat cs form r :: ts, k :: ks, d, i, acc, g, g', parts, hs, h1, h2, h => by
    simp only [SilentAll] at hs
    rw [composeChildren] at h
    cases cs with
    | nil =>
      simp only [List.isEmpty_nil, if_true] at h
      cases hf : semOf r.sem with
      | none =>
        simp only [hf] at h
        exact composeChildren_silent ts ks d _ _ _ _ _ hs.2 h1 h2 h
      | some f =>
        simp only [hf, M.bind_eq_ok] at h
        obtain ⟨_, s, _, h⟩ := h
        exact composeChildren_silent ts ks d _ _ _ _ _ hs.2 (by exact h1) (by exact h2) h
    | cons c0 cs0 =>
      simp only [List.isEmpty_cons, Bool.false_eq_true, if_false, M.bind_eq_ok] at h
      obtain ⟨_, inc, _, g2, c, hc, h⟩ := h
      obtain ⟨e1, e2⟩ := compose_silent _ _ _ _ _ (by simp [ParseTree.children]) hs.1 hc
      exact composeChildren_silent ts ks d _ _ _ _ _ hs.2 (by simp [h1, e1]) (by simp [h2, e2]) h
end

/-- The trees of the parser conjoin, if the rules of the grammar do. -/
theorem derived_conjunctive {ar : String → Option Nat} {own : GRule Attachment → List Value → Query} {E : Oracles}
    {rules : List (GRule Attachment)} (ok : RulesOk rules) (hc : ∀ r, Usable rules r → ConjRule ar own r) {text : Str}
    {cs : List Constituent} {i k : Nat} {ds : List (DTree Attachment)} (hd : Derives E rules text cs i k ds) :
    ∀ ts, TreesOf Eq ds ts → ConjunctiveAll ar own ts ∧ SilentAll ts ∧ ts.length = cs.length ∧ (cs ≠ [] → ts ≠ []) ∧
      innerCount ts = countPos .relation cs ∧
      (∀ (i : Nat) t c, ts[i]? = some t → cs[i]? = some c → t.children ≠ [] → c.args.length = t.rule.ante.args.length) ∧
      (∀ (i : Nat) t c, ts[i]? = some t → cs[i]? = some c → c.pos = .relation → t.children ≠ []) ∧
      ∃ ws, leafSems ts = wordValues ws ∧ ws.length = countPos .regexp cs ∧ ∀ qs, childSems ts qs = semArgs cs qs ws := by
  induction hd with
  | nil i =>
    intro ts ht
    cases ht
    exact ⟨trivial, trivial, rfl, by simp, rfl, by simp, by simp, [], rfl, rfl, fun qs => rfl⟩
  | @leaf c cs i j k form ds htok hd ih =>
    intro ts ht
    cases ht with
    | @leaf _ _ r _ ts hr ht =>
      obtain ⟨i1, i2, i3, i4, i5, i6, i8, ws, i7, i9, i10⟩ := ih ts ht
      have harity : ∀ (i : Nat) t c', (ParseTree.node c.predicate [] form r :: ts)[i]? = some t → (c :: cs)[i]? = some c' →
          t.children ≠ [] → c'.args.length = t.rule.ante.args.length := by
        intro i t c' h1 h2 h3
        cases i with
        | zero => simp only [List.getElem?_cons_zero, Option.some.injEq] at h1; subst h1; simp [ParseTree.children] at h3
        | succ i => exact i6 i t c' h1 h2 h3
      refine ⟨⟨by simp [Conjunctive, ConjunctiveAll], i1⟩, ⟨by simp [Silent, SilentAll], i2⟩, by simp [i3], by simp, ?_, harity, ?_, ?_⟩
      · rcases htok.2.2 with h | h <;> simpa [innerCount, ParseTree.children, countPos, h.1] using i5
      · intro i t c' h1 h2 h3
        cases i with
        | zero =>
          simp only [List.getElem?_cons_zero, Option.some.injEq] at h1 h2
          subst h2
          rcases htok.2.2 with h | h <;> rw [h.1] at h3 <;> cases h3
        | succ i => exact i8 i t c' h1 h2 h3
      · rcases htok.2.2 with h | h
        · refine ⟨ws, ?_, ?_, fun qs => ?_⟩
          · simpa [leafSems, ParseTree.children, ParseTree.rule, leafSem, hr.2, leafAttached, h.1, semOf] using i7
          · simpa [countPos, h.1] using i9
          · simpa [childSems, semArgs, ParseTree.children, ParseTree.rule, leafSem, hr.2, leafAttached, h.1, semOf] using i10 qs
        · refine ⟨form :: ws, ?_, ?_, fun qs => ?_⟩
          · simpa [leafSems, ParseTree.children, ParseTree.rule, leafSem, hr.2, leafAttached, h.1, semOf, wordValues] using i7
          · simpa [countPos, h.1] using i9
          · simpa [childSems, semArgs, ParseTree.children, ParseTree.rule, leafSem, hr.2, leafAttached, h.1, semOf] using i10 qs
  | @node c cs i j k r ds es hu heq hd he ihd ihe =>
    intro ts ht
    cases ht with
    | @node _ r' _ us _ ts hrr hus hts =>
      subst hrr
      obtain ⟨i1, i2, i3, i4, i5, i6, i8, ws, i7, i9, i10⟩ := ihe ts hts
      obtain ⟨j1, j2, j3, j4, j5, j6, j8, vs, j7, j9, j10⟩ := ihd us hus
      have hcr := hc r hu
      obtain ⟨r0, hr0, hv⟩ := hu
      have hrel : r.ante.pos = .relation := by rw [(C36_mandatory r0 r hv).1]; exact ok.relation r0 hr0
      have hne : us ≠ [] := j4 (ok.cons_ne r0 hr0 r hv)
      simp only [Constituent.equals] at heq
      have hpos : c.pos = .relation := by simp_all
      have hargs : c.args.length = r.ante.args.length := by simp_all
      have hemp : us.isEmpty = false := by cases us <;> simp_all
      have hnode : ConjNode ar own us r := by
        refine ⟨hcr.nodup, hcr.names, j3.symm, fun i t c h1 h2 h3 => j6 i t c h1 h2 h3, by rw [j7]; exact hcr.ownOk vs, by rw [j7]; exact hcr.ownClosed vs,
          by rw [j7]; exact hcr.ownNames vs, ?_⟩
        intro f hf qs v hl hfv
        rw [j10] at hfv
        rw [j7]
        exact hcr.sem f hf qs vs v (by rw [hl, j5]) j9 hfv
      refine ⟨⟨⟨fun _ => hnode, j1⟩, i1⟩, ⟨⟨fun _ => ⟨hcr.noExec, hcr.noDialog⟩, j2⟩, i2⟩, by simp [i3], by simp, ?_, ?_, ?_, ws, ?_, ?_, ?_⟩
      · simpa [innerCount, ParseTree.children, countPos, hpos, hemp] using i5
      · intro i t c' h1 h2 h3
        cases i with
        | zero =>
          simp only [List.getElem?_cons_zero, Option.some.injEq] at h1 h2
          subst h1; subst h2
          exact hargs
        | succ i => exact i6 i t c' h1 h2 h3
      · intro i t c' h1 h2 h3
        cases i with
        | zero =>
          simp only [List.getElem?_cons_zero, Option.some.injEq] at h1
          subst h1
          exact hne
        | succ i => exact i8 i t c' h1 h2 h3
      · simpa [leafSems, ParseTree.children, hemp] using i7
      · simpa [countPos, hpos] using i9
      · intro qs
        cases qs with
        | nil => simpa [childSems, semArgs, ParseTree.children, hemp, hpos] using i10 []
        | cons q qs => simpa [childSems, semArgs, ParseTree.children, hemp, hpos] using i10 qs

/-! ## C70 -/

/-- The modules of the knowledge base, with the core module (`Model.py:13-14`). -/
def KnowledgeBase.modules {ar : String → Option Nat} {tables : List (Dict (List (List Value)))} {rs : List HornRule}
    (K : KnowledgeBase W ar tables rs) : List (Module W) := modelOf (K.before ++ inferenceModule K.lens :: K.after)

/-- No optimiser, or one that uses the same model, in which nothing redefines `scoped` and the sizes that relations tell are right. -/
def OptimizerOk {ar : String → Option Nat} {tables : List (Dict (List (List Value)))} {rs : List HornRule} (K : KnowledgeBase W ar tables rs)
    (optimizer : Option (List (Module W))) : Prop :=
  optimizer = none ∨ (optimizer = some K.modules ∧ NotDefined (K.before ++ inferenceModule K.lens :: K.after) K.world "scoped" ∧
    ∀ p k, ar p = some k → ∀ r ∈ findRelations K.modules K.world p,
      r.relationSize = none ∨ (r.argumentSizes.length = k ∧ some 0 ∉ r.argumentSizes))

mutual
theorem varsOf_closed : ∀ v : Value, deepVars v = [] → varsOf v = []
  | .var x, h => by simp [deepVars] at h
  | .list xs, h => by simp only [deepVars] at h; simp only [varsOf]; exact varsOfList_closed xs h
  | .tuple xs, h => by simp only [deepVars] at h; simp only [varsOf]; exact varsOfList_closed xs h
  | .none, _ => rfl
  | .num _, _ => rfl
  | .str _, _ => rfl
  | .rvar _, _ => rfl
  | .tmpl _ _, _ => rfl
theorem varsOfList_closed : ∀ vs : List Value, deepVarsAll vs = [] → varsOfList vs = []
  | [], _ => rfl
  | v :: vs, h => by
    simp only [deepVarsAll, List.append_eq_nil_iff] at h
    simp [varsOfList, varsOf_closed v h.1, varsOfList_closed vs h.2]
end

/-- From answers of an optimised form to values of the root variables. -/
theorem fits_evaluated {P : Program} {q : Query} {roots : List String} {bs : List Binding}
    (hs : ∀ b' ∈ bs, PlainB b' ∧ Extends ([] : Binding) b' ∧ (∀ x, b'.has x = true → Dict.has ([] : Binding) x = true ∨ x ∈ queryVars q) ∧
      (∀ x ∈ roots, x ∈ queryVars q → b'.has x = true) ∧ ∃ σ : Assignment, (∀ x, Plain (σ x)) ∧ Agrees σ b' ∧ AllTrue P q σ)
    (hc : ∀ σ : Assignment, (∀ x, Plain (σ x)) → Agrees σ [] → AllTrue P q σ → ∃ b' ∈ bs, Agrees σ b')
    (hnd : ∀ (i j : Nat) v, roots[i]? = some v → roots[j]? = some v → i = j) {vals : List Value} (hlen : vals.length = roots.length)
    (hp : ∀ v ∈ vals, Plain v) :
    (∃ b ∈ bs, Fits b roots vals) ↔ ∃ σ : Assignment, (∀ x, Plain (σ x)) ∧ roots.map σ = vals ∧ AllTrue P q σ := by
  constructor
  · rintro ⟨b, hb, hf⟩
    obtain ⟨_, _, _, r1, σ0, p0, a0, t0⟩ := hs b hb
    obtain ⟨σ, h1, h2, h3⟩ := exists_assignment hnd hlen hp σ0 p0
    refine ⟨σ, h1, h2, allTrue_congr (fun x hx => ?_) t0⟩
    by_cases hxr : x ∈ roots
    · obtain ⟨j, hj⟩ := List.getElem?_of_mem hxr
      have hv := congrArg (fun l => l[j]?) h2
      simp only [List.getElem?_map, hj, Option.map_some] at hv
      obtain ⟨u, hu⟩ := (Dict.has_iff _ _).1 (r1 x hxr hx)
      rcases hf j x (σ x) hj hv.symm with h | h
      · rw [h] at hu; cases hu
      · exact a0 x _ h
    · exact (h3 x hxr).symm
  · rintro ⟨σ, h1, rfl, h3⟩
    obtain ⟨b, hb, hag⟩ := hc σ h1 (fun x v hx => by simp at hx) h3
    refine ⟨b, hb, fun j r v hj hv => ?_⟩
    simp only [List.getElem?_map, hj, Option.map_some, Option.some.injEq] at hv
    cases hx : b.get r with
    | none => exact .inl rfl
    | some u => rw [← hv, hag r u hx]; exact .inr rfl

section
variable {ar : String → Option Nat} {tables : List (Dict (List (List Value)))} {rs : List HornRule}

/-- What composer and executor make of a query: the world stays the same, and the answers are those of the query, as far as the
root variables are concerned, with and without optimiser. -/
theorem forms_answers (K : KnowledgeBase W ar tables rs) (hrr : HeadsBound rs) {optimizer : Option (List (Module W))} (hopt : OptimizerOk K optimizer)
    {q : Query} (hq : QueryOk ar q) (hcl : ConstsClosed q) {roots : List String}
    (hnd : ∀ (i j : Nat) v, roots[i]? = some v → roots[j]? = some v → i = j) {w1 w2 : W} {forms : List (String × Value)} {n : Nat} {out : SolOut}
    {inf ex} (hf : composerForms optimizer (toQuery q) roots K.world = .ok w1 forms)
    (he : (solverAt K.modules n).solve (ComposerProduct.lastIteration ⟨forms, inf, ex, roots⟩) [] w1 = .ok w2 out) :
    w1 = K.world ∧ w2 = K.world ∧ ∃ bs, out = .rows bs ∧ ∀ vals : List Value, vals.length = roots.length → (∀ v ∈ vals, Plain v) →
      ((∃ b ∈ bs, Fits b roots vals) ↔ ∃ σ : Assignment, (∀ x, Plain (σ x)) ∧ roots.map σ = vals ∧ AllTrue (program tables rs) q σ) := by
  have hb : PlainB [] := fun x v hx => by simp at hx
  have hok : ProgramOk W ar (K.dbs ++ K.dbs') rs := K.split ▸ K.ok
  have hh := holds_inference K.lens K.world ar K.facts K.facts' rs hok K.inserted
  rcases hopt with rfl | ⟨rfl, hsc, hsz⟩
  · simp only [composerForms, M.pure_eq_ok] at hf
    obtain ⟨rfl, rfl⟩ := hf
    simp only [ComposerProduct.lastIteration, List.foldl_cons, List.foldl_nil] at he
    have hg := solve_good (holds_wellFormed hok hh) n hq hb
    rcases hg with h1 | ⟨bs', h1, _⟩
    · rw [KnowledgeBase.modules, h1] at he; cases he
    · have he' := he
      rw [KnowledgeBase.modules, h1] at he'
      cases he'
      obtain ⟨s1, _, c1⟩ := K.exact hq hb (n := n) h1
      exact ⟨rfl, rfl, bs', rfl, fun vals hlen hp => fits_iff s1 (c1 hrr) hnd hlen hp⟩
  · have hnn : NoNested q := fun a ha v hv hi => varsOf_closed v (hcl a ha v hv hi).1
    have hnl : NoLists q := by
      intro a ha v hv xs e
      subst e
      exact (hcl a ha _ hv rfl).2 xs rfl
    have hsz' : SizesOk K.modules K.world q := fun a ha r hr => hsz a.1 _ (hq a ha).1 r hr
    obtain ⟨q2, hp, ho⟩ := optimize_form hnl hsz' roots
    have hforms : w1 = K.world ∧ ∃ pre, forms = pre ++ [("Isolated", .list (isolate (q2.map toAtom) roots))] := by
      simp only [composerForms, toQuery, optimizeForms, M.bind_eq_ok, M.pure_eq_ok] at hf
      obtain ⟨_, s1, h1, _, s2, h2, rfl, rfl⟩ := hf
      simp only [optimize] at ho
      rw [KnowledgeBase.modules] at h2
      rw [M.bind_ok h1, M.bind_ok h2, M.pure_run] at ho
      simp only [Res.ok.injEq] at ho
      exact ⟨ho.1, [_, _, _], by rw [← ho.2]; rfl⟩
    obtain ⟨rfl, pre, rfl⟩ := hforms
    simp only [ComposerProduct.lastIteration, List.foldl_append, List.foldl_cons, List.foldl_nil] at he
    cases n with
    | zero => cases he
    | succ n =>
      have hex := atomsExact (fin := false) (m := 0) hok hh hrr (by simp)
      have hev := isolateN_evaluates hsc hex (q2.map toAtom).length n roots q2 (Nat.zero_le _) (by simp)
          (fun a ha => hq a (hp.mem_iff.1 ha)) (fun a ha => hnn a (hp.mem_iff.1 ha)) (.inl rfl)
      rcases (hev.congr fun a => hp.mem_iff) [] hb (by simp) with ⟨_, h⟩ | ⟨bs, h1, h2, h3⟩
      · exact absurd (he.symm.trans h) (by simp)
      · have := he.symm.trans h1
        cases this
        rw [← K.split] at h2 h3
        exact ⟨rfl, rfl, bs, rfl, fun vals hlen hp => fits_evaluated h2 h3 hnd hlen hp⟩

/-- Specification: a derivation of the whole text from the category `s`. -/
def WholeDerivation (E : Oracles) (rules : List (GRule Attachment)) (text : Str) (d : DTree Attachment) : Prop :=
  ∃ c, c.predicate = cRoot ∧ c.pos = .relation ∧ Derives E rules text [c] 0 text.length [d]

/-- **C70** Entering a text, in a session in which texts were entered before, over stored rows and rules, with a grammar whose rules conjoin.
If this returns, there are two cases. Either there is no result, and the text has no derivation. Or there is a derivation of the text such
that its tree is first in rank, the result is a list of answers, the world is as it was, and the values of the root variables in the
answers are exactly the values that the tree is true of. The session can be continued with other texts. -/
theorem C70_text_to_answers (K : KnowledgeBase W ar tables rs) (hrr : HeadsBound rs) {own : GRule Attachment → List Value → Query}
    (E : Oracles) (rules : List (GRule Attachment)) (ok : RulesOk rules) (hconj : ∀ r, Usable rules r → ConjRule ar own r)
    (text : Str) (hl : LowerOk E (normalizeSpace text)) (fuel depth n : Nat) {optimizer : Option (List (Module W))} (hopt : OptimizerOk K optimizer)
    {fuel' depth' : Nat} (texts : List Str) {s : Session W} (hg : s.grammar = parseHistory E fuel' depth' (Grammar.new rules) texts)
    (hw : s.world = K.world) {st : Request (Product (ParseTree Attachment)) × Session W} {res : Option (Product (ParseTree Attachment))}
    (h : enter (solverAt K.modules n).inSession (sentencePipeline E fuel depth optimizer (solverAt K.modules n)) (Request.new text, s) = .ok st res) :
    st.2.grammar = parseHistory E fuel' depth' (Grammar.new rules) (texts ++ [normalizeSpace text]) ∧
    ((res = none ∧ ∀ d, ¬ WholeDerivation E rules (normalizeSpace text) d) ∨
    ∃ t d bs, WholeDerivation E rules (normalizeSpace text) d ∧ TreesOf Eq [d] [t] ∧
      (∀ d', WholeDerivation E rules (normalizeSpace text) d' → ∃ t', TreesOf (fun r r' => r.equals r' = true) [d'] [t'] ∧
        (t' = t ∨ RankedBefore t t')) ∧
      res = some (.executed (.rows bs)) ∧ st.2.world = K.world ∧
      ∃ product : ComposerProduct, st.1.current 1 = some (.composed product) ∧ ∃ roots, roots = product.returnVariables ∧
        roots = (List.range t.rule.ante.args.length).map (fun j => genName (s.gen.number + j + 1)) ∧ ∀ vals : List Value, vals.length = roots.length → (∀ v ∈ vals, Plain v) →
        ((∃ b ∈ bs, Fits b roots vals) ↔ Means (program tables rs) own t vals)) := by
  obtain ⟨hgr, h⟩ := enter_sentence h
  refine ⟨?_, ?_⟩
  · rw [hgr, hg, parseHistory, parseHistory, List.foldl_append]; rfl
  rw [hg, C33_no_memory_block] at h
  rcases h with ⟨e, hp, rfl, _⟩ | ⟨t, rest, g, roots, c, w1, w2, w3, forms, o, out, hp, hcomp, hforms, hwr, hexec, hsolve, _, hcur, rfl⟩
  · left
    refine ⟨rfl, fun d ⟨c, hc1, hc2, hd⟩ => ?_⟩
    simp only [basicParse] at hp
    cases hr : (parse E fuel depth (Grammar.new rules) (normalizeSpace text)).1 with
    | err e => rw [hr] at hp; simp [Out.bind] at hp
    | oof => rw [hr] at hp; simp [Out.bind] at hp
    | ok p =>
      obtain ⟨trees, e'⟩ := p
      rw [hr] at hp
      simp only [Out.bind, Out.ok.injEq, Prod.mk.injEq] at hp
      have hperm := C38_permutation trees
      rw [hp.1] at hperm
      obtain ⟨t, ht, _⟩ := C30_complete E rules ok _ hl fuel depth trees e' hr c hc1 hc2 d hd
      have := hperm.mem_iff.2 ht
      simp at this
  · right
    simp only [basicParse] at hp
    cases hr : (parse E fuel depth (Grammar.new rules) (normalizeSpace text)).1 with
    | err e => rw [hr] at hp; simp [Out.bind] at hp
    | oof => rw [hr] at hp; simp [Out.bind] at hp
    | ok p =>
      obtain ⟨trees, e'⟩ := p
      rw [hr] at hp
      simp only [Out.bind, Out.ok.injEq, Prod.mk.injEq] at hp
      have hperm := C38_permutation trees
      have hord := C38_order trees
      rw [hp.1] at hperm hord
      obtain ⟨c0, d, hc1, hc2, hd, htree⟩ := C29_derivation E rules ok _ hl fuel depth trees e' hr t (hperm.mem_iff.1 (by simp))
      obtain ⟨i1, i2, _, _, _, _, i8, _⟩ := derived_conjunctive ok hconj hd [t] htree
      simp only [ConjunctiveAll, SilentAll, and_true] at i1 i2
      have hne : t.children ≠ [] := i8 0 t c0 rfl rfl hc2
      obtain ⟨g1, h1, h2, _⟩ := composeSentence_parts hcomp
      obtain ⟨e1, e2⟩ := compose_silent _ _ _ _ _ hne i2 h2
      rw [e1] at hwr
      rw [e2] at hexec
      simp only [writeAll, M.pure_eq_ok] at hwr
      obtain ⟨rfl, _⟩ := hwr
      obtain ⟨q, hq, hok, hcl, hiff⟩ := C69_composed_iff_means (program tables rs) hne i1 hcomp
      rw [hq, hw] at hforms
      have hw3 : w1 = w3 := by
        cases n with
        | zero => cases hexec
        | succ n =>
          have : (solverAt K.modules (n + 1)).solve (.list []) [] w1 = .ok w1 (.rows [[]]) := rfl
          rw [this] at hexec
          cases hexec; rfl
      subst hw3
      obtain ⟨_, hw2, bs, rfl, hans⟩ := forms_answers K hrr hopt hok hcl (nextVars_nodup h1) hforms hsolve
      obtain ⟨_, a2, a3⟩ := nextVars_roots h1
      refine ⟨t, d, bs, ⟨c0, hc1, hc2, hd⟩, htree, ?_, rfl, hw2, _, hcur, roots, rfl, ?_, fun vals hlen hpl => ?_⟩
      · rintro d' ⟨c', hc1', hc2', hd'⟩
        obtain ⟨t', ht', htr'⟩ := C30_complete E rules ok _ hl fuel depth trees e' hr c' hc1' hc2' d' hd'
        refine ⟨t', htr', ?_⟩
        rcases List.mem_cons.1 (hperm.mem_iff.2 ht') with e | hm
        · exact .inl e
        · exact .inr ((List.pairwise_cons.1 hord).1 t' hm)
      · apply List.ext_getElem?
        intro j
        by_cases hj : j < roots.length
        · rw [List.getElem?_eq_getElem hj, a3 j _ (List.getElem?_eq_getElem hj)]
          simp [← a2, hj]
        · rw [List.getElem?_eq_none (by omega), List.getElem?_eq_none (by simp; omega)]
      · rw [hans vals hlen hpl, hiff]

end

end

/-! ### An example -/

namespace Ex

/-- Oracles: `lower` does nothing, a regular expression takes the letters up to a space. -/
def whoOracles : Oracles := ⟨fun _ _ => 0, fun _ _ _ _ => 0, fun s => s, fun _ s => match (s.takeWhile (· != ' ')).length with
  | 0 => none
  | n => some n⟩

def whoS : Constituent := ⟨cRoot, [['A']], .relation, false, false⟩
def whoP (x : Char) : Constituent := ⟨['p'], [[x]], .relation, false, false⟩

/-- `s(A) -> 'who ' p(A)`, meaning that of `p(A)`. -/
def whoRule : GRule Attachment := GRule.new whoOracles.ruleHash whoS [exW ['w', 'h', 'o', ' '], whoP 'A']
  (.user { sem := some fun vs => match vs with
    | [.list p] => .ok (.list p)
    | _ => .error .typeError })

/-- `p(A) -> 'kid ' /[a-z]+/`, meaning `parent(name, A)`. -/
def kidRule : GRule Attachment := GRule.new whoOracles.ruleHash (whoP 'A') [exW ['k', 'i', 'd', ' '], exRegexp ['x']]
  (.user { sem := some fun vs => match vs with
    | [name] => .ok (.list [.tuple [.str "parent", name, .var "A"]])
    | _ => .error .typeError })

/-- `p(A) -> 'heir ' p(B)`, meaning that of `p(B)` and `ancestor(B, A)`. -/
def heirRule : GRule Attachment := GRule.new whoOracles.ruleHash (whoP 'A') [exW ['h', 'e', 'i', 'r', ' '], whoP 'B']
  (.user { sem := some fun vs => match vs with
    | [.list p] => .ok (.list (p ++ [.tuple [.str "ancestor", .var "B", .var "A"]]))
    | _ => .error .typeError })

def whoRules : List (GRule Attachment) := [whoRule, kidRule, heirRule]

/-- The atoms that the rules add. -/
def whoOwn (r : GRule Attachment) (ws : List Value) : Query :=
  if r.cons = kidRule.cons then (match ws with
    | [name] => [("parent", [name, .var "A"])]
    | _ => []) else if r.cons = heirRule.cons then [("ancestor", [.var "B", .var "A"])] else []

theorem who_ok : RulesOk whoRules := by
  constructor <;> decide +kernel

theorem who_usable {r : GRule Attachment} (h : Usable whoRules r) : r = whoRule ∨ r = kidRule ∨ r = heirRule := by
  obtain ⟨r0, h0, hv⟩ := h
  have key : ∀ r0 ∈ whoRules, ruleVariants r0 = [r0] := by
    intro r0 h0
    apply C36_no_optional
    simp only [whoRules, List.mem_cons, List.not_mem_nil, or_false] at h0
    rcases h0 with rfl | rfl | rfl <;> decide
  rw [key r0 h0, List.mem_singleton] at hv
  subst hv
  simpa [whoRules] using h0

theorem whoOwn_who (ws : List Value) : whoOwn whoRule ws = [] := rfl
theorem whoOwn_heir (ws : List Value) : whoOwn heirRule ws = [("ancestor", [.var "B", .var "A"])] := rfl

theorem whoOwn_kid (ws : List Str) : whoOwn kidRule (wordValues ws) = [] ∨ ∃ w, ws = [w] ∧
    whoOwn kidRule (wordValues ws) = [("parent", [.str (String.ofList w), .var "A"])] := by
  match ws with
  | [] => exact .inl rfl
  | [w] => exact .inr ⟨w, rfl, rfl⟩
  | _ :: _ :: _ => exact .inl rfl

theorem who_conj (r : GRule Attachment) (h : Usable whoRules r) : ConjRule familyAr whoOwn r := by
  rcases who_usable h with rfl | rfl | rfl
  · refine ⟨by decide +kernel, by decide +kernel, ?_, ?_, ?_, ?_, rfl, fun _ => rfl⟩
    · intro ws; rw [whoOwn_who]; simp [QueryOk]
    · intro ws; rw [whoOwn_who]; simp [ConstsClosed]
    · intro ws; rw [whoOwn_who]; simp [queryVars]
    · intro f hf qs ws v hqs hws hv
      have : qs.length = 1 := hqs
      match qs, this with
      | [q], _ =>
        cases hf
        cases hv
        exact ⟨q, rfl, fun a => by simp [whoOwn_who]⟩
  · refine ⟨by decide +kernel, by decide +kernel, ?_, ?_, ?_, ?_, rfl, fun _ => rfl⟩
    · intro ws
      rcases whoOwn_kid ws with e | ⟨w, _, e⟩ <;> rw [e] <;> simp [QueryOk, ArgsOk, familyAr, Value.isVar, Plain, legal]
    · intro ws
      rcases whoOwn_kid ws with e | ⟨w, _, e⟩ <;> rw [e] <;> simp [ConstsClosed, Value.isVar, deepVars]
    · intro ws
      rcases whoOwn_kid ws with e | ⟨w, _, e⟩ <;> rw [e]
      · simp [queryVars]
      · have : queryVars [("parent", [.str (String.ofList w), .var "A"])] = ["A"] := rfl
        rw [this]; decide +kernel
    · intro f hf qs ws v hqs hws hv
      have h1 : qs.length = 0 := hqs
      have h2 : ws.length = 1 := hws
      match qs, h1, ws, h2 with
      | [], _, [w], _ =>
        cases hf
        cases hv
        exact ⟨[("parent", [.str (String.ofList w), .var "A"])], rfl, fun a => by simp [wordValues, whoOwn]⟩
  · refine ⟨by decide +kernel, by decide +kernel, ?_, ?_, ?_, ?_, rfl, fun _ => rfl⟩
    · intro ws; rw [whoOwn_heir]; simp [QueryOk, ArgsOk, familyAr, Value.isVar]
    · intro ws; rw [whoOwn_heir]; simp [ConstsClosed, Value.isVar]
    · intro ws; rw [whoOwn_heir]; decide +kernel
    · intro f hf qs ws v hqs hws hv
      have : qs.length = 1 := hqs
      match qs, this with
      | [q], _ =>
        cases hf
        cases hv
        exact ⟨q ++ [("ancestor", [.var "B", .var "A"])], by simp [toQuery, toAtom], fun a => by simp [whoOwn_heir, or_comm]⟩

def whoText : Str := ['w', 'h', 'o', ' ', ' ', 'h', 'e', 'i', 'r', ' ', 'k', 'i', 'd', ' ', 'a', 'n', 'n']

/-- The session after a text that is not understood. -/
def whoSession : Session InfState := ⟨parseHistory whoOracles 20 20 (Grammar.new whoRules) [['n', 'o']], ⟨0, []⟩, familyKB.world⟩

/-- The answers in a result. -/
def answersOf {S : Type} : Res S (Option (Product (ParseTree Attachment))) → Option (List Binding)
  | .ok _ (some (.executed (.rows bs))) => some bs
  | _ => none

/-- The session runs: the heirs of the kids of ann. -/
theorem who_runs : answersOf (enter (solverAt familyKB.modules 8).inSession
      (sentencePipeline whoOracles 100 20 none (solverAt familyKB.modules 8)) (Request.new whoText, whoSession)) =
    some [[("$2", .str "bob"), ("$1", .str "cas")], [("$2", .str "bob"), ("$1", .str "dan")]] := by decide +kernel

/-- With the optimiser. -/
theorem who_runs_optimised : answersOf (enter (solverAt familyKB.modules 8).inSession
      (sentencePipeline whoOracles 100 20 (some familyKB.modules) (solverAt familyKB.modules 8)) (Request.new whoText, whoSession)) =
    some [[("$2", .str "bob"), ("$1", .str "cas")], [("$2", .str "bob"), ("$1", .str "dan")]] := by decide +kernel

theorem answersOf_some {S : Type} {r : Res S (Option (Product (ParseTree Attachment)))} {bs : List Binding} (h : answersOf r = some bs) :
    ∃ st, r = .ok st (some (.executed (.rows bs))) := by
  match r, h with
  | .ok st (some (.executed (.rows bs'))), h => cases h; exact ⟨st, rfl⟩

theorem who_optimizer : OptimizerOk familyKB (some familyKB.modules) := by
  refine .inr ⟨rfl, isolateRulesExample_ok.2.2.2.1, fun p k h r hr => ?_⟩
  have hp : p = "parent" ∨ p = "ancestor" := by
    simp only [familyAr] at h
    split at h
    · exact .inl ‹_›
    · split at h
      · exact .inr ‹_›
      · cases h
  rcases hp with rfl | rfl
  · refine (isolateRulesExample_ok.2.2.2.2 ("parent", [.str "ann", .var "X"]) (by simp [isolateRulesExample]) r hr).imp id fun h' => ?_
    have : k = 2 := by simpa [familyAr] using h.symm
    exact ⟨this ▸ h'.1, h'.2⟩
  · refine (isolateRulesExample_ok.2.2.2.2 ("ancestor", [.var "X", .var "Y"]) (by simp [isolateRulesExample]) r hr).imp id fun h' => ?_
    have : k = 2 := by simpa [familyAr] using h.symm
    exact ⟨this ▸ h'.1, h'.2⟩

/-- The text has a derivation whose tree is true of `cas` and `dan` and of nothing else. -/
theorem who_means : ∃ t d, WholeDerivation whoOracles whoRules (normalizeSpace whoText) d ∧ TreesOf Eq [d] [t] ∧
    Means (program [family] ancestorRules) whoOwn t [.str "cas"] ∧ Means (program [family] ancestorRules) whoOwn t [.str "dan"] ∧
    ¬ Means (program [family] ancestorRules) whoOwn t [.str "bob"] := by
  obtain ⟨st, h⟩ := answersOf_some who_runs
  obtain ⟨_, h⟩ := C70_text_to_answers familyKB ancestor_heads whoOracles whoRules who_ok who_conj whoText (by intro i; simp [whoOracles]) 100 20 8
    (.inl rfl) (fuel' := 20) (depth' := 20) [['n', 'o']] rfl rfl h
  rcases h with ⟨h, _⟩ | ⟨t, d, bs, h1, h2, _, h4, _, product, _, roots, _, h6, h7⟩
  · cases h
  · cases h4
    have hlen : t.rule.ante.args.length = 1 := by
      obtain ⟨c, _, hc, hd⟩ := h1
      cases hd with
      | leaf htok _ => rcases htok.2.2 with h | h <;> rw [h.1] at hc <;> cases hc
      | node hu _ _ _ =>
        cases h2 with
        | node hr _ _ => subst hr; rcases who_usable hu with rfl | rfl | rfl <;> rfl
    rw [hlen] at h6
    have h6 : roots = ["$1"] := h6.trans (by decide +kernel)
    subst h6
    have hone : ∀ v, Plain v → ((v = .str "cas" ∨ v = .str "dan") ↔ Means (program [family] ancestorRules) whoOwn t [v]) := by
      intro v hv
      rw [← h7 [v] rfl (by simpa using hv)]
      have g1 : Dict.get ([("$2", .str "bob"), ("$1", .str "cas")] : Binding) "$1" = some (.str "cas") := by decide +kernel
      have g2 : Dict.get ([("$2", .str "bob"), ("$1", .str "dan")] : Binding) "$1" = some (.str "dan") := by decide +kernel
      constructor
      · rintro (rfl | rfl)
        · refine ⟨_, List.mem_cons_self, fun j r u hj hu => ?_⟩
          cases j with
          | zero => cases hj; cases hu; exact .inr g1
          | succ j => simp at hj
        · refine ⟨_, List.mem_cons_of_mem _ List.mem_cons_self, fun j r u hj hu => ?_⟩
          cases j with
          | zero => cases hj; cases hu; exact .inr g2
          | succ j => simp at hj
      · rintro ⟨b, hb, hf⟩
        have := hf 0 "$1" v rfl rfl
        simp only [List.mem_cons, List.not_mem_nil, or_false] at hb
        rcases hb with rfl | rfl
        · rw [g1] at this; left; simpa [eq_comm] using this
        · rw [g2] at this; right; simpa [eq_comm] using this
    have hp : ∀ x, Plain (.str x) := fun x => ⟨by simp, rfl, rfl⟩
    exact ⟨t, d, h1, h2, (hone _ (hp _)).1 (.inl rfl), (hone _ (hp _)).1 (.inr rfl), fun hm => by simpa using (hone _ (hp _)).2 hm⟩

/-- With the optimiser, on the same session. -/
example : ∃ st res, enter (solverAt familyKB.modules 8).inSession
      (sentencePipeline whoOracles 100 20 (some familyKB.modules) (solverAt familyKB.modules 8)) (Request.new whoText, whoSession) = .ok st res ∧
    st.2.grammar = parseHistory whoOracles 20 20 (Grammar.new whoRules) [['n', 'o'], normalizeSpace whoText] := by
  obtain ⟨st, h⟩ := answersOf_some who_runs_optimised
  exact ⟨st, _, h, (C70_text_to_answers familyKB ancestor_heads whoOracles whoRules who_ok who_conj whoText (by intro i; simp [whoOracles]) 100 20 8
    who_optimizer (fuel' := 20) (depth' := 20) [['n', 'o']] rfl rfl h).1⟩

/-- The hypotheses of **C69** are met by the tree of this text. -/
example : ∃ t g' roots c, t.children ≠ [] ∧ Conjunctive familyAr whoOwn t ∧ composeSentence t ⟨0, []⟩ = .ok g' (roots, c) := by
  obtain ⟨st, h⟩ := answersOf_some who_runs
  obtain ⟨_, h⟩ := enter_sentence h
  have hg : whoSession.grammar = parseHistory whoOracles 20 20 (Grammar.new whoRules) [['n', 'o']] := rfl
  rw [hg, C33_no_memory_block] at h
  rcases h with ⟨e, _, h, _⟩ | ⟨t, rest, g, roots, c, w1, w2, w3, forms, o, out, hp, hcomp, _⟩
  · cases h
  simp only [basicParse] at hp
  cases hr : (parse whoOracles 100 20 (Grammar.new whoRules) (normalizeSpace whoText)).1 with
  | err e => rw [hr] at hp; simp [Out.bind] at hp
  | oof => rw [hr] at hp; simp [Out.bind] at hp
  | ok p =>
    obtain ⟨trees, e'⟩ := p
    rw [hr] at hp
    simp only [Out.bind, Out.ok.injEq, Prod.mk.injEq] at hp
    have hperm := C38_permutation trees
    rw [hp.1] at hperm
    obtain ⟨c0, d, hc1, hc2, hd, htree⟩ := C29_derivation whoOracles whoRules who_ok _ (by intro i; simp [whoOracles]) 100 20 trees e' hr t
      (hperm.mem_iff.1 (by simp))
    obtain ⟨i1, _, _, _, _, _, i8, _⟩ := derived_conjunctive who_ok who_conj hd [t] htree
    exact ⟨t, _, _, _, i8 0 t c0 rfl rfl hc2, i1.1, hcomp⟩

end Ex

end Verif

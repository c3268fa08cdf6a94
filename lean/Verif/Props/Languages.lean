import Verif.Languages
import Verif.Simulate
import Verif.Props.Forgetting
import Verif.Props.MixedDialogs

/-!
# C100: systems with several languages

A turn of a system with several languages is the turn of the first language whose parser understands the text, or of the last language if none does.
-/

namespace Verif

/-! ## Simulation of the generator -/

section
variable {V W : Type} {π : V → W} {a : SolverApi V} {a' : SolverApi W}

theorem tryWriteRule_sim (h : SolverApi.Sim π a a') (rule : WRule) (res : Option WRule) (b : Binding) :
    M.Sim π (tryWriteRule a rule res b) (tryWriteRule a' rule res b) := by
  unfold tryWriteRule
  cases rule.parts.sem with
  | nil => exact M.Sim.pure _
  | cons x xs =>
    refine M.Sim.bind (h.solve _ _) fun o => ?_
    cases o with
    | rows rs => cases rs <;> exact M.Sim.pure _
    | iter _ k =>
      cases k
      · exact M.Sim.pure _
      · exact M.Sim.throw _

theorem findRuleLoop_sim (h : SolverApi.Sim π a a') (used : List Nat) (values : List Value) (rules : List WRule) (res : Option WRule) (b : Binding) :
    M.Sim π (findRuleLoop a used values rules res b) (findRuleLoop a' used values rules res b) := by
  induction rules generalizing res b with
  | nil => exact M.Sim.pure _
  | cons r rs ih =>
    refine M.Sim.bind (tryWriteRule_sim h _ _ _) fun o => ?_
    split
    · exact M.Sim.pure _
    · exact ih _ _

theorem genWords_sim {node : List Nat → Str → List Value → Bool → M V (List Nat × Value)}
    {node' : List Nat → Str → List Value → Bool → M W (List Nat × Value)} (hn : ∀ u c v o, M.Sim π (node u c v o) (node' u c v o))
    (rule : WRule) (b : Binding) (cs : List Constituent) (used : List Nat) : M.Sim π (genWords node rule b cs used) (genWords node' rule b cs used) := by
  induction cs generalizing used with
  | nil => exact M.Sim.pure _
  | cons c cs ih =>
    refine M.Sim.bind ?_ fun r => M.Sim.bind (ih _) fun _ => M.Sim.pure _
    unfold genConsequent
    split
    · exact M.Sim.pure _
    · split
      · exact M.Sim.bind (M.Sim.lift _) fun _ => M.Sim.pure _
      · split
        · exact M.Sim.bind (M.Sim.lift _) fun _ => M.Sim.pure _
        · split
          · exact M.Sim.bind (M.Sim.lift _) fun _ => M.Sim.pure _
          · exact hn _ _ _ _

theorem genNode_sim (h : SolverApi.Sim π a a') (g : Grammar WriteSem) (n : Nat) (used : List Nat) (cat : Str) (values : List Value) (optional : Bool) :
    M.Sim π (genNode a g n used cat values optional) (genNode a' g n used cat values optional) := by
  induction n generalizing used cat values optional with
  | zero => exact M.Sim.oof
  | succ n ih =>
    refine M.Sim.bind (findRuleLoop_sim h _ _ _ _ _) fun r => ?_
    obtain ⟨rule, b⟩ := r
    cases rule with
    | none =>
      dsimp only
      split
      · exact M.Sim.throw _
      · exact M.Sim.pure _
    | some rule => exact M.Sim.bind (genWords_sim ih _ _ _ _) fun _ => M.Sim.bind (M.Sim.lift _) fun _ => M.Sim.pure _

theorem generateOutput_sim (h : SolverApi.Sim π a a') (g : Grammar WriteSem) {l : Lens V SimpleStore} {l' : Lens W SimpleStore} (hl : Lens.Sim π l l') (n : Nat) :
    M.Sim π (generateOutput a g l n) (generateOutput a' g l' n) :=
  M.Sim.bind (genNode_sim h g n _ _ _ _) fun _ => M.Sim.bind (M.Sim.modify fun v => hl.put _ v) fun _ => M.Sim.pure _

end

/-! ## Blocks that give no error -/

section
variable {P W : Type}

/-- The code gives no error of a block. -/
def NoError (m : M W BlockResult) : Prop := ∀ s s' r, m s = .ok s' r → r.errorType = ""

theorem tryFirst_noError {p : Processor P W} (hp : ∀ req s s' r, p.process req s = .ok s' r → r.errorType = "")
    {next : M (Request P × W) BlockResult} (hn : NoError next) : NoError (tryFirst p next) := by
  intro s s' r h
  simp only [tryFirst, M.bind_eq_ok] at h
  obtain ⟨s1, r1, h1, h2⟩ := h
  obtain ⟨s2, h3, rfl⟩ := onWorld_ok.1 h1
  rw [if_neg (by simpa using hp _ _ _ _ h3)] at h2
  simp only [M.bind_eq_ok] at h2
  obtain ⟨s3, _, _, h4⟩ := h2
  cases hps : r1.products with
  | nil =>
    rw [hps] at h4
    simp only [M.pure_eq_ok] at h4
    rw [← h4.2]; rfl
  | cons q qs =>
    rw [hps] at h4
    simp only [M.bind_eq_ok, M.pure_eq_ok] at h4
    obtain ⟨s4, _, _, s5, r5, h5, _, h6⟩ := h4
    rw [← h6]
    exact hn _ _ _ h5

theorem findOneProducts_noError {i : Nat} {next : M (Request P × W) BlockResult} (hn : NoError next) :
    ∀ (ps : List P) last, last.errorType = "" → NoError (findOneProducts i next ps last)
  | [], last, hl, s, s', r, h => by
    simp only [findOneProducts, M.pure_eq_ok] at h
    rw [← h.2]; exact hl
  | p :: ps, last, hl, s, s', r, h => by
    simp only [findOneProducts, M.bind_eq_ok] at h
    obtain ⟨s1, _, _, s2, r2, h2, h3⟩ := h
    rw [if_pos (hn _ _ _ h2), M.pure_eq_ok] at h3
    rw [← h3.2]; rfl

theorem findOneProducts_success {i : Nat} {next : M (Request P × W) BlockResult} :
    ∀ (ps : List P) last, (last.errorType = "" → last = .success) → ∀ s s' r, findOneProducts i next ps last s = .ok s' r → r.errorType = "" → r = .success
  | [], last, hl, s, s', r, h, he => by
    simp only [findOneProducts, M.pure_eq_ok] at h
    rw [← h.2] at he ⊢; exact hl he
  | p :: ps, last, hl, s, s', r, h, he => by
    simp only [findOneProducts, M.bind_eq_ok] at h
    obtain ⟨s1, _, _, s2, r2, h2, h3⟩ := h
    split at h3
    · rw [M.pure_eq_ok] at h3; exact h3.2.symm
    · rename_i hne
      exact findOneProducts_success ps _ (fun e => absurd e hne) _ _ _ h3 he

theorem findOne_success {p : Processor P W} {next : M (Request P × W) BlockResult} {s s' : Request P × W} {r : BlockResult}
    (h : findOne p next s = .ok s' r) (he : r.errorType = "") : r = .success := by
  simp only [findOne, M.bind_eq_ok] at h
  obtain ⟨s1, r1, h1, h2⟩ := h
  split at h2
  · rename_i hne
    rw [M.pure_eq_ok] at h2
    rw [← h2.2] at he
    exact absurd he hne
  · simp only [M.bind_eq_ok] at h2
    obtain ⟨s3, _, _, h4⟩ := h2
    exact findOneProducts_success _ _ (fun _ => rfl) _ _ _ h4 he

end

section
variable {W : Type}

theorem composer_noError (optimizer : Option (List (Module W))) (req : Request (Product (ParseTree Attachment))) (s s' : Session W)
    (r : ProcResult (Product (ParseTree Attachment))) (h : (semanticComposer 1 0 optimizer).process req s = .ok s' r) : r.errorType = "" := by
  simp only [semanticComposer] at h
  cases hc : req.current 0 with
  | none => rw [hc] at h; cases h
  | some p =>
    rw [hc] at h
    cases p with
    | parse t =>
      simp only [M.bind_eq_ok, M.pure_eq_ok] at h
      obtain ⟨_, _, _, _, _, _, _, h⟩ := h
      rw [← h]
    | _ => cases h

theorem executor_noError (api : SolverApi (Session W)) (req : Request (Product (ParseTree Attachment))) (s s' : Session W)
    (r : ProcResult (Product (ParseTree Attachment))) (h : (atomExecutor 2 1 api).process req s = .ok s' r) : r.errorType = "" := by
  simp only [atomExecutor] at h
  cases hc : req.current 1 with
  | none => rw [hc] at h; cases h
  | some p =>
    rw [hc] at h
    cases p with
    | composed c =>
      simp only [M.bind_eq_ok, M.pure_eq_ok] at h
      obtain ⟨_, _, _, _, _, _, _, _, _, _, h⟩ := h
      rw [← h]
    | _ => cases h

/-- The pipeline for one language gives an error only if the text is not understood. -/
theorem sentence_noError {E : Oracles} {fuel depth : Nat} {optimizer : Option (List (Module W))} {api : SolverApi W}
    {req : Request (Product (ParseTree Attachment))} {s : Session W} {st : Request (Product (ParseTree Attachment)) × Session W} {r : BlockResult}
    (h : runBlocks (sentencePipeline E fuel depth optimizer api) (req, s) = .ok st r) (hn : ∀ e, (basicParse E fuel depth s.grammar req.text).1 ≠ .ok ([], e)) :
    r = .success := by
  refine findOne_success h ?_
  simp only [sentencePipeline, runBlocks, Block.process, findOne, M.bind_eq_ok] at h
  obtain ⟨s1, r1, h1, h2⟩ := h
  obtain ⟨s2, h3, rfl⟩ := onWorld_ok.1 h1
  simp only [basicParser] at h3
  cases hb : basicParse E fuel depth s.grammar req.text with
  | mk o gr =>
    rw [hb] at h3
    cases o with
    | err e => simp at h3
    | oof => simp at h3
    | ok p =>
      obtain ⟨trees, e⟩ := p
      simp only [Res.ok.injEq] at h3
      obtain ⟨rfl, rfl⟩ := h3
      obtain ⟨hiff, hnone⟩ := parse_trees (E := E) (fuel := fuel) (depth := depth) (g := s.grammar) (text := req.text) (by rw [hb])
      have hne : trees ≠ [] := by
        rintro rfl
        exact hn e (by rw [hb])
      have hty : e.type = "" := hiff.2 hne
      rw [if_neg (by simpa using hty)] at h2
      simp only [M.bind_eq_ok] at h2
      obtain ⟨s3, _, _, h4⟩ := h2
      exact findOneProducts_noError (tryFirst_noError (composer_noError optimizer) (tryFirst_noError (executor_noError _) fun _ _ _ h => by
        simp only [M.pure_eq_ok] at h; rw [← h.2]; rfl)) _ _ rfl _ _ _ h4

/-- A text that is not understood in one language. -/
theorem sentence_refused {E : Oracles} {fuel depth : Nat} {optimizer : Option (List (Module W))} {api : SolverApi W}
    {req : Request (Product (ParseTree Attachment))} {s : Session W} {e : ParseError} (h : (basicParse E fuel depth s.grammar req.text).1 = .ok ([], e)) :
    e.type ≠ "" ∧ runBlocks (sentencePipeline E fuel depth optimizer api) (req, s) =
      .ok (req, withGrammar (basicParse E fuel depth s.grammar req.text).2 s) ⟨e.type, e.args⟩ := by
  obtain ⟨hiff, hnone⟩ := parse_trees (E := E) (fuel := fuel) (depth := depth) (g := s.grammar) (text := req.text) h
  have hty : e.type ≠ "" := by rw [Ne, hiff]; simp
  refine ⟨hty, ?_⟩
  have hx : execProcess (basicParser 0 E fuel depth) (req, s) =
      .ok (req, withGrammar (basicParse E fuel depth s.grammar req.text).2 s) ⟨([] : List (ParseTree Attachment)).map .parse, e.type, e.args⟩ := by
    simp only [execProcess, onWorld, basicParser]
    cases hb : basicParse E fuel depth s.grammar req.text with
    | mk o gr =>
      rw [hb] at h
      obtain rfl : o = _ := h
      rfl
  simp only [sentencePipeline, runBlocks, Block.process, findOne]
  rw [M.bind_ok hx, if_pos (by simpa using hty)]
  rfl

/-! ## The pipeline with the parser of one locale -/

/-- The request after the selector has chosen a locale. -/
def chosen (alts : List (Product (ParseTree Attachment))) (l : String) (req : Request (Product (ParseTree Attachment))) : Request (Product (ParseTree Attachment)) :=
  (req.setAlternatives 3 alts).setCurrent 3 (.locale l)

/-- The same in a session. -/
def chosenIn (alts : List (Product (ParseTree Attachment))) (s0 : Sessions W) (l : String) (s : Request (Product (ParseTree Attachment)) × Session W) :
    Request (Product (ParseTree Attachment)) × Sessions W := (chosen alts l s.1, s0.back l s.2)

theorem back_at (s : Sessions W) (l : String) : s.back l (s.at l) = s := by
  obtain ⟨g, n, w⟩ := s
  simp only [Sessions.back, Sessions.at, Sessions.mk.injEq, and_self, and_true]
  funext l'
  split
  · rename_i h; rw [h]
  · rfl

theorem at_back (s : Sessions W) (l : String) (s' : Session W) : (s.back l s').at l = s' := by
  simp [Sessions.back, Sessions.at]

theorem back_back (s : Sessions W) (l : String) (s' s'' : Session W) : (s.back l s').back l s'' = s.back l s'' := by
  simp only [Sessions.back, Sessions.mk.injEq, and_self, and_true]
  funext l'
  split <;> rfl

theorem inLocale_sim {α : Type} (s0 : Sessions W) (l : String) (m : M (Session W) α) : M.Sim (s0.back l) m (inLocale l m) := by
  intro v
  simp only [inLocale, at_back, back_back]
  cases m v <;> rfl

theorem inLocale_sim_any {α : Type} (s0 : Sessions W) (l k : String) {m : M (Session W) α} (hm : ∀ gr, Commutes (withGrammar gr) m) :
    M.Sim (s0.back l) m (inLocale k m) := by
  intro v
  have e1 : (s0.back l v).at k = withGrammar ((s0.back l v).grammars k) v := rfl
  have e2 : ∀ v' : Session W, v'.grammar = v.grammar → (s0.back l v).back k (withGrammar ((s0.back l v).grammars k) v') = s0.back l v' := by
    intro v' hv
    simp only [Sessions.back, withGrammar, Sessions.mk.injEq, and_self, and_true, hv]
    funext l'
    by_cases h : l' = k
    · subst h; simp
    · simp [h]
  have hself := hm v.grammar v
  rw [show withGrammar v.grammar v = v from rfl] at hself
  simp only [inLocale, e1, hm _ v]
  cases hr : m v with
  | ok v' a =>
    rw [hr] at hself
    simp only [Res.mapWorld, Res.ok.injEq, and_true] at hself
    simp only [Res.mapWorld]
    rw [e2 v' (by rw [hself]; rfl)]
  | err v' e =>
    rw [hr] at hself
    simp only [Res.mapWorld, Res.err.injEq, and_true] at hself
    simp only [Res.mapWorld]
    rw [e2 v' (by rw [hself]; rfl)]
  | oof => rfl

theorem api_sim (api : SolverApi W) (s0 : Sessions W) (l : String) : SolverApi.Sim (s0.back l) api.inSession api.inLocales :=
  ⟨fun _ _ => inLocale_sim_any s0 l "" fun _ => commutes_inWorld _, fun _ => inLocale_sim_any s0 l "" fun _ => commutes_inWorld _⟩

variable {alts : List (Product (ParseTree Attachment))} {s0 : Sessions W} {l : String}

theorem onWorld_sim {α : Type} {m : M (Session W) α} {m' : M (Sessions W) α} (h : M.Sim (s0.back l) m m') :
    M.Sim (chosenIn alts s0 l) (onWorld m) (onWorld m') := by
  intro v
  have := h v.2
  simp only [onWorld, chosenIn]
  rw [← this]
  cases m v.2 <;> rfl

theorem exec_sim {p : Processor (Product (ParseTree Attachment)) (Session W)} {p' : Processor (Product (ParseTree Attachment)) (Sessions W)}
    (h : ∀ req, M.Sim (s0.back l) (p.process req) (p'.process (chosen alts l req))) : M.Sim (chosenIn alts s0 l) (execProcess p) (execProcess p') :=
  fun v => onWorld_sim (h v.1) v

theorem chosen_setCurrent {i : Nat} (hi : i ≠ 3) (p : Product (ParseTree Attachment)) (req : Request (Product (ParseTree Attachment))) :
    chosen alts l (req.setCurrent i p) = (chosen alts l req).setCurrent i p := by
  simp only [chosen, Request.setCurrent, Request.setAlternatives, Request.mk.injEq, true_and, and_true]
  funext j
  by_cases h : j = 3
  · subst h; simp [Ne.symm hi]
  · simp [h]

theorem chosen_setAlternatives {i : Nat} (hi : i ≠ 3) (ps : List (Product (ParseTree Attachment))) (req : Request (Product (ParseTree Attachment))) :
    chosen alts l (req.setAlternatives i ps) = (chosen alts l req).setAlternatives i ps := by
  simp only [chosen, Request.setCurrent, Request.setAlternatives, Request.mk.injEq, true_and]
  funext j
  by_cases h : j = 3
  · subst h; simp [Ne.symm hi]
  · simp [h]

theorem setCurrent_sim {i : Nat} (hi : i ≠ 3) (p : Product (ParseTree Attachment)) :
    M.Sim (chosenIn alts s0 l) (setCurrentProduct i p) (setCurrentProduct i p) :=
  M.Sim.modify fun v => by simp only [chosenIn, chosen_setCurrent hi]

theorem setAlternatives_sim {i : Nat} (hi : i ≠ 3) (ps : List (Product (ParseTree Attachment))) :
    M.Sim (chosenIn alts s0 l) (setAlternativeProducts i ps) (setAlternativeProducts i ps) :=
  M.Sim.modify fun v => by simp only [chosenIn, chosen_setAlternatives hi]

theorem tryFirst_sim {p : Processor (Product (ParseTree Attachment)) (Session W)} {p' : Processor (Product (ParseTree Attachment)) (Sessions W)}
    (hid : p'.id = p.id) (hi : p.id ≠ 3) (h : ∀ req, M.Sim (s0.back l) (p.process req) (p'.process (chosen alts l req)))
    {next : M (Request (Product (ParseTree Attachment)) × Session W) BlockResult} {next' : M (Request (Product (ParseTree Attachment)) × Sessions W) BlockResult}
    (hn : M.Sim (chosenIn alts s0 l) next next') : M.Sim (chosenIn alts s0 l) (tryFirst p next) (tryFirst p' next') := by
  refine M.Sim.bind (exec_sim h) fun r => ?_
  split
  · exact M.Sim.pure _
  · rw [hid]
    refine M.Sim.bind (setAlternatives_sim hi _) fun _ => ?_
    cases r.products with
    | nil => exact M.Sim.pure _
    | cons q qs => exact M.Sim.bind (setCurrent_sim hi _) fun _ => M.Sim.bind hn fun _ => M.Sim.pure _

theorem findOneProducts_sim {i : Nat} (hi : i ≠ 3) {next : M (Request (Product (ParseTree Attachment)) × Session W) BlockResult}
    {next' : M (Request (Product (ParseTree Attachment)) × Sessions W) BlockResult} (hn : M.Sim (chosenIn alts s0 l) next next') :
    ∀ (ps : List (Product (ParseTree Attachment))) last, M.Sim (chosenIn alts s0 l) (findOneProducts i next ps last) (findOneProducts i next' ps last)
  | [], _ => M.Sim.pure _
  | _ :: ps, _ => M.Sim.bind (setCurrent_sim hi _) fun _ => M.Sim.bind hn fun _ => by
      split
      · exact M.Sim.pure _
      · exact findOneProducts_sim hi hn ps _

theorem findOne_sim {p : Processor (Product (ParseTree Attachment)) (Session W)} {p' : Processor (Product (ParseTree Attachment)) (Sessions W)}
    (hid : p'.id = p.id) (hi : p.id ≠ 3) (h : ∀ req, M.Sim (s0.back l) (p.process req) (p'.process (chosen alts l req)))
    {next : M (Request (Product (ParseTree Attachment)) × Session W) BlockResult} {next' : M (Request (Product (ParseTree Attachment)) × Sessions W) BlockResult}
    (hn : M.Sim (chosenIn alts s0 l) next next') : M.Sim (chosenIn alts s0 l) (findOne p next) (findOne p' next') := by
  refine M.Sim.bind (exec_sim h) fun r => ?_
  split
  · exact M.Sim.pure _
  · rw [hid]
    exact M.Sim.bind (setAlternatives_sim hi _) fun _ => findOneProducts_sim hi hn _ _

theorem chosen_current {i : Nat} (hi : i ≠ 3) (req : Request (Product (ParseTree Attachment))) : (chosen alts l req).current i = req.current i := by
  simp [chosen, Request.setCurrent, Request.setAlternatives, hi]

theorem writeAll_locale_sim (api : SolverApi W) : ∀ vs, M.Sim (s0.back l) (writeAll api.inSession vs) (writeAll api.inLocales vs)
  | [] => M.Sim.pure _
  | _ :: vs => M.Sim.bind ((api_sim api s0 l).writeAtom _) fun _ => writeAll_locale_sim api vs

/-- After the choice of a locale with a parser the pipeline is that of one language. -/
theorem locale_sim {available : List String} (hl : l ∈ available) (E : Oracles) (fuel depth : Nat) (optimizer : Option (List (Module W))) (api : SolverApi W)
    (locales : List String) :
    M.Sim (chosenIn alts s0 l) (runBlocks (sentencePipeline E fuel depth optimizer api)) (runBlocks (languagesPipeline locales available E fuel depth optimizer api).tail) := by
  refine findOne_sim rfl (show (0 : Nat) ≠ 3 by decide) (fun req => ?_) (tryFirst_sim rfl (show (1 : Nat) ≠ 3 by decide) (fun req => ?_)
    (tryFirst_sim rfl (show (2 : Nat) ≠ 3 by decide) (fun req => ?_) (M.Sim.pure _)))
  · have hget : Dict.get (available.map fun l => (l, ((basicParser 0 E fuel depth).inLocale l : Processor (Product (ParseTree Attachment)) (Sessions W)))) l =
        some ((basicParser 0 E fuel depth).inLocale l) := by
      clear locales
      induction available with
      | nil => simp at hl
      | cons k ks ih =>
        rw [List.map_cons, Dict.get_cons]
        by_cases h : k = l
        · subst h; simp
        · rw [if_neg h]
          exact ih ((List.mem_cons.1 hl).resolve_left (Ne.symm h))
    have e : (multilingual 0 (available.map fun l => (l, ((basicParser 0 E fuel depth).inLocale l : Processor (Product (ParseTree Attachment)) (Sessions W)))) 3).process
        (chosen alts l req) = inLocale l ((basicParser 0 E fuel depth).process req) := by
      have h3 : (chosen alts l req).current 3 = some (.locale l) := by simp [chosen, Request.setCurrent]
      simp only [multilingual, h3, hget]
      rfl
    rw [e]
    exact inLocale_sim s0 l _
  · have e : ((semanticComposer 1 0 optimizer).inLocale "").process (chosen alts l req) = inLocale "" ((semanticComposer 1 0 optimizer).process req) := by
      simp only [Processor.inLocale, semanticComposer, chosen_current (show (0 : Nat) ≠ 3 by decide)]
    rw [e]
    exact inLocale_sim_any s0 l "" fun _ => commutes_composer optimizer req
  · simp only [atomExecutor, chosen_current (show (1 : Nat) ≠ 3 by decide)]
    have ha := api_sim api s0 l
    split
    · exact M.Sim.bind (writeAll_locale_sim api _) fun _ => M.Sim.bind (ha.solve _ _) fun _ => M.Sim.bind (ha.solve _ _) fun _ => M.Sim.pure _
    · exact M.Sim.throw _


/-! ## The selector -/

/-- The text is not understood with the grammar: the parser gives no tree. -/
def Refused (E : Oracles) (fuel depth : Nat) (g : Grammar Attachment) (text : Str) : Prop := ∃ e, (basicParse E fuel depth g text).1 = .ok ([], e)

/-- After the parsers of some locales have been tried. -/
def Sessions.tried (E : Oracles) (fuel depth : Nat) (text : Str) (s : Sessions W) (pre : List String) : Sessions W :=
  { s with grammars := fun l => if l ∈ pre then (basicParse E fuel depth (s.grammars l) text).2 else s.grammars l }

theorem tried_nil (E : Oracles) (fuel depth : Nat) (text : Str) (s : Sessions W) : s.tried E fuel depth text [] = s := by
  simp [Sessions.tried]

theorem tried_cons {E : Oracles} {fuel depth : Nat} {text : Str} {s : Sessions W} {p : String} {pre : List String} (hp : p ∉ pre) :
    (s.tried E fuel depth text [p]).tried E fuel depth text pre = s.tried E fuel depth text (p :: pre) := by
  simp only [Sessions.tried, Sessions.mk.injEq, and_self, and_true]
  funext k
  by_cases h : k ∈ pre
  · have hk : k ≠ p := fun e => hp (e ▸ h)
    simp [h, hk]
  · by_cases hk : k = p
    · subst hk; simp [h]
    · simp [h, hk]

theorem back_tried (E : Oracles) (fuel depth : Nat) (text : Str) (s : Sessions W) (p : String) :
    s.back p (withGrammar (basicParse E fuel depth (s.at p).grammar text).2 (s.at p)) = s.tried E fuel depth text [p] := by
  simp only [Sessions.back, Sessions.tried, withGrammar, Sessions.at, Sessions.mk.injEq, and_self, and_true]
  funext k
  by_cases hk : k = p
  · subst hk; simp
  · simp [hk]

variable {available : List String} {E : Oracles} {fuel depth : Nat} {optimizer : Option (List (Module W))} {api : SolverApi W} {locales : List String}
  {req : Request (Product (ParseTree Attachment))} {post : List String}

theorem select_locale (hl : l ∈ available) : ∀ (pre : List String) (s : Sessions W) (r : Request (Product (ParseTree Attachment))) (last : BlockResult),
    (∀ k, r.setCurrent 3 (.locale k) = chosen alts k req) → (pre ++ [l]).Nodup → (∀ p ∈ pre, p ∈ available) →
    (∀ p ∈ pre, Refused E fuel depth (s.grammars p) req.text) → (post = [] ∨ ¬ Refused E fuel depth (s.grammars l) req.text) →
    findOneProducts 3 (runBlocks (languagesPipeline locales available E fuel depth optimizer api).tail) ((pre ++ l :: post).map .locale) last (r, s) =
      (runBlocks (sentencePipeline E fuel depth optimizer api) (req, s.at l)).mapWorld (chosenIn alts (s.tried E fuel depth req.text pre) l)
  | [], s, r, last, hreq, _, _, _, hpost => by
    have hset : setCurrentProduct (W := Sessions W) 3 (.locale l) (r, s) = .ok (chosenIn alts s l (req, s.at l)) () := by
      simp only [chosenIn, back_at, ← hreq]; rfl
    have hsim := locale_sim (alts := alts) (s0 := s) (l := l) hl E fuel depth optimizer api locales (req, s.at l)
    rw [tried_nil]
    simp only [List.nil_append, List.map_cons, findOneProducts]
    rw [M.bind_ok hset, M.bind_run, ← hsim]
    cases hr : runBlocks (sentencePipeline E fuel depth optimizer api) (req, s.at l) with
    | oof => rfl
    | err v e => rfl
    | ok v x =>
      simp only [Res.mapWorld]
      by_cases he : x.errorType = ""
      · rw [if_pos he, findOne_success hr he]; rfl
      · rw [if_neg he]
        rcases hpost with rfl | hn
        · rfl
        · have := sentence_noError hr (fun e h => hn ⟨e, h⟩)
          rw [this] at he
          exact absurd rfl he
  | p :: pre, s, r, last, hreq, hnd, hav, href, hpost => by
    have hset : setCurrentProduct (W := Sessions W) 3 (.locale p) (r, s) = .ok (chosenIn alts s p (req, s.at p)) () := by
      simp only [chosenIn, back_at, ← hreq]; rfl
    have hsim := locale_sim (alts := alts) (s0 := s) (l := p) (hav p List.mem_cons_self) E fuel depth optimizer api locales (req, s.at p)
    obtain ⟨e, he⟩ := href p List.mem_cons_self
    obtain ⟨hty, hrun⟩ := sentence_refused (optimizer := optimizer) (api := api) (s := s.at p) he
    rw [List.cons_append, List.nodup_cons] at hnd
    have hpm : p ∉ pre := fun h => hnd.1 (List.mem_append_left _ h)
    have hpl : p ≠ l := fun h => hnd.1 (h ▸ List.mem_append_right _ (List.mem_singleton_self _))
    have hother : ∀ k, k ≠ p → (s.tried E fuel depth req.text [p]).grammars k = s.grammars k := fun k hk => by simp [Sessions.tried, hk]
    simp only [List.cons_append, List.map_cons, findOneProducts]
    rw [M.bind_ok hset, M.bind_run, ← hsim, hrun]
    simp only [Res.mapWorld, if_neg hty]
    rw [show chosenIn alts s p (req, withGrammar (basicParse E fuel depth (s.at p).grammar req.text).2 (s.at p)) =
      (chosen alts p req, s.tried E fuel depth req.text [p]) by simp only [chosenIn, back_tried]]
    rw [select_locale hl pre (s.tried E fuel depth req.text [p]) (chosen alts p req) _ (fun k => by
        simp only [chosen, Request.setCurrent, Request.setAlternatives, Request.mk.injEq, true_and, and_true]
        funext j
        split <;> rfl) hnd.2 (fun q hq => hav q (List.mem_cons_of_mem _ hq))
      (fun q hq => by rw [hother q fun e => hpm (e ▸ hq)]; exact href q (List.mem_cons_of_mem _ hq)) (by rw [hother l (Ne.symm hpl)]; exact hpost)]
    rw [tried_cons hpm]
    congr 2
    simp only [Sessions.at, hother l (Ne.symm hpl)]
    rfl

theorem select_run (hl : l ∈ available) {pre post : List String} {s : Sessions W} {text : Str} (hnd : (pre ++ [l]).Nodup) (hav : ∀ p ∈ pre, p ∈ available)
    (href : ∀ p ∈ pre, Refused E fuel depth (s.grammars p) text) (hpost : post = [] ∨ ¬ Refused E fuel depth (s.grammars l) text) :
    runBlocks (languagesPipeline (pre ++ l :: post) available E fuel depth optimizer api) (Request.new text, s) =
      (runBlocks (sentencePipeline E fuel depth optimizer api) (Request.new text, s.at l)).mapWorld
        (chosenIn ((pre ++ l :: post).map .locale) (s.tried E fuel depth text pre) l) := by
  exact Eq.trans rfl (select_locale (req := Request.new text) (locales := pre ++ l :: post) hl pre s
    ((Request.new text).setAlternatives 3 ((pre ++ l :: post).map .locale)) .success (fun _ => rfl) hnd hav href hpost)

/-- What `enter` does after the blocks. -/
def afterBlocks {P V : Type} (api : SolverApi V) (i : Nat) (result : BlockResult) : M (Request P × V) (Option P) :=
  if result.errorType ≠ "" then do
    let _ ← onWorld (api.solve (.list [.tuple [.str "store", .list
      [.tuple [.str "output_type", .str result.errorType],
       .tuple (.str ("output_" ++ result.errorType) :: result.errorArgs)]]]) [])
    pure none
  else do
    let product ← M.gets fun s => s.1.current i
    match product with
    | some p => pure (some p)
    | none => M.throw .attributeError

theorem enter_afterBlocks {P V : Type} {api : SolverApi V} {blocks : List (Block P V)} {last : Block P V} (h : blocks.getLast? = some last) :
    enter api blocks = (runBlocks blocks >>= afterBlocks api last.processor.id) := by
  simp only [enter, h]
  rfl

theorem afterBlocks_sim (result : BlockResult) : M.Sim (chosenIn alts s0 l) (afterBlocks api.inSession 2 result) (afterBlocks api.inLocales 2 result) := by
  unfold afterBlocks
  split
  · exact M.Sim.bind (onWorld_sim ((api_sim api _ l).solve _ _)) fun _ => M.Sim.pure _
  · refine M.Sim.bind (M.Sim.gets fun v => chosen_current (alts := alts) (l := l) (show (2 : Nat) ≠ 3 by decide) v.1) fun p => ?_
    cases p with
    | none => exact M.Sim.throw _
    | some p => exact M.Sim.pure _

theorem enter_locale (hl : l ∈ available) {pre post : List String} {s : Sessions W} {text : Str} (hnd : (pre ++ [l]).Nodup) (hav : ∀ p ∈ pre, p ∈ available)
    (href : ∀ p ∈ pre, Refused E fuel depth (s.grammars p) text) (hpost : post = [] ∨ ¬ Refused E fuel depth (s.grammars l) text) :
    enter api.inLocales (languagesPipeline (pre ++ l :: post) available E fuel depth optimizer api) (Request.new text, s) =
      (enter api.inSession (sentencePipeline E fuel depth optimizer api) (Request.new text, s.at l)).mapWorld
        (chosenIn ((pre ++ l :: post).map .locale) (s.tried E fuel depth text pre) l) := by
  have e1 : enter api.inLocales (languagesPipeline (pre ++ l :: post) available E fuel depth optimizer api) =
      (runBlocks (languagesPipeline (pre ++ l :: post) available E fuel depth optimizer api) >>= afterBlocks api.inLocales 2) :=
    enter_afterBlocks (last := ⟨.tryFirst, atomExecutor 2 1 api.inLocales⟩) rfl
  have e2 : enter api.inSession (sentencePipeline E fuel depth optimizer api) =
      (runBlocks (sentencePipeline E fuel depth optimizer api) >>= afterBlocks api.inSession 2) :=
    enter_afterBlocks (last := ⟨.tryFirst, atomExecutor 2 1 api.inSession⟩) rfl
  rw [e1, e2, M.bind_run, M.bind_run, select_run hl hnd hav href hpost]
  cases runBlocks (sentencePipeline E fuel depth optimizer api) (Request.new text, s.at l) with
  | oof => rfl
  | err v e => rfl
  | ok v x => exact (afterBlocks_sim x v).symm

/-- **C100** A turn of a system with several languages is that of the first language whose parser understands the text, or of the last language if there is none;
the parsers of the languages before it have only been tried. -/
theorem C100_turn (hl : l ∈ available) {pre post : List String} {s : Sessions W} {text : Str} (hnd : (pre ++ [l]).Nodup) (hav : ∀ p ∈ pre, p ∈ available)
    (href : ∀ p ∈ pre, Refused E fuel depth (s.grammars p) text) (hpost : post = [] ∨ ¬ Refused E fuel depth (s.grammars l) text)
    (wg : Grammar WriteSem) (buffer : Lens W SimpleStore) (m : Nat) :
    turn api.inLocales (languagesPipeline (pre ++ l :: post) available E fuel depth optimizer api) wg buffer.inLocales m text s =
      (turn api.inSession (sentencePipeline E fuel depth optimizer api) wg buffer.inSession m text (s.at l)).mapWorld
        ((s.tried E fuel depth text pre).back l) := by
  simp only [turn, enter_locale (optimizer := optimizer) (api := api) hl hnd hav href hpost]
  cases enter api.inSession (sentencePipeline E fuel depth optimizer api) (Request.new text, s.at l) with
  | oof => rfl
  | err v e => rfl
  | ok v x => exact (generateOutput_sim (api_sim api _ l) wg ⟨fun _ => rfl, fun _ _ => rfl⟩ m v.2).symm

/-- There is always such a language. -/
theorem C100_first (E : Oracles) (fuel depth : Nat) (text : Str) (s : Sessions W) : ∀ {locales : List String}, locales ≠ [] →
    ∃ pre l post, locales = pre ++ l :: post ∧ (∀ p ∈ pre, Refused E fuel depth (s.grammars p) text) ∧
      (post = [] ∨ ¬ Refused E fuel depth (s.grammars l) text)
  | [l], _ => ⟨[], l, [], rfl, by simp, .inl rfl⟩
  | l :: k :: ks, _ => by
    by_cases h : Refused E fuel depth (s.grammars l) text
    · obtain ⟨pre, l', post, e, h1, h2⟩ := C100_first E fuel depth text s (locales := k :: ks) (by simp)
      exact ⟨l :: pre, l', post, by rw [e]; rfl, by simpa [h] using h1, h2⟩
    · exact ⟨[], l, k :: ks, rfl, by simp, .inr h⟩

end

/-! ## The replies are right -/

section
variable {W : Type} {ar : String → Option Nat} {tables : List (Dict (List (List Value)))} {rs : List HornRule} {l : Lens W SimpleStore} {g : W → InfState}
  {wg : Grammar WriteSem} {f : List Value → Except Err Value} {yes no said : Str} {rule : WRule}
  {R : String → List String} {kinds : String → Str → Nat → Kind} {spec : String → GRule Attachment → List Value → RuleParts}
  {asks : String → GRule Attachment → Asked} {rules : String → List (GRule Attachment)} {locales available : List String}

/-- The rules are those of a language for questions, as in C94. -/
structure Language (K : KnowledgeBase W ar tables rs) (g : W → InfState) (wg : Grammar WriteSem) (f : List Value → Except Err Value) (yes no : Str)
    (R : List String) (kinds : Str → Nat → Kind) (spec : GRule Attachment → List Value → RuleParts) (asks : GRule Attachment → Asked)
    (rules : List (GRule Attachment)) : Prop where
  ok : RulesOk rules
  names : NamesOk rules
  phrases : ∀ r, Usable rules r → r.ante.predicate ≠ cRoot → SpecRule ar R kinds spec r
  questions : ∀ r, Usable rules r → r.ante.predicate = cRoot → QuestionRule ar R kinds spec asks r ∧ Served K.others K.world g wg f yes no (asks r)
  nested : ∀ r, Usable rules r → ∀ c ∈ r.cons, c.pos = .relation → c.predicate ≠ cRoot

/-- The language of the text: the first one in which the text can be derived, or, if there is none, the last one. -/
def LanguageOf (E : Oracles) (locales : List String) (rules : String → List (GRule Attachment)) (text : Str) (k : String) : Prop :=
  ∃ pre post, locales = pre ++ k :: post ∧ (∀ p ∈ pre, ∀ d, ¬ WholeDerivation E (rules p) (normalizeSpace text) d) ∧
    (post = [] ∨ ∃ d, WholeDerivation E (rules k) (normalizeSpace text) d)

/-- There is one such language. -/
theorem LanguageOf.unique {E : Oracles} {text : Str} {k k' : String} (h : LanguageOf E locales rules text k)
    (h' : LanguageOf E locales rules text k') : k = k' := by
  obtain ⟨pre, post, e, h1, h2⟩ := h
  obtain ⟨pre', post', e', h1', h2'⟩ := h'
  subst e
  induction pre generalizing pre' with
  | nil =>
    cases pre' with
    | nil => simp only [List.nil_append, List.cons.injEq] at e'; exact e'.1
    | cons p pre' =>
      simp only [List.nil_append, List.cons_append, List.cons.injEq] at e'
      rcases h2 with rfl | ⟨d, hd⟩
      · simp at e'
      · exact absurd (e'.1 ▸ hd) (h1' p List.mem_cons_self d)
  | cons q pre ih =>
    cases pre' with
    | nil =>
      simp only [List.nil_append, List.cons_append, List.cons.injEq] at e'
      rcases h2' with rfl | ⟨d, hd⟩
      · simp at e'
      · exact absurd (e'.1 ▸ hd) (h1 q List.mem_cons_self d)
    | cons p pre' =>
      simp only [List.cons_append, List.cons.injEq] at e'
      exact ih (fun p hp => h1 p (List.mem_cons_of_mem _ hp)) pre' (fun p hp => h1' p (List.mem_cons_of_mem _ hp)) e'.2

/-- The optimiser does not spoil the content of the questions, in any of the languages. -/
def SortableAll (ar : String → Option Nat) (E : Oracles) (locales : List String) (rules : String → List (GRule Attachment)) (asks : String → GRule Attachment → Asked) :
    List Str → Gen → Prop
  | [], _ => True
  | text :: texts, gen => (∀ k ∈ locales, SortableText ar E (rules k) (asks k) text gen) ∧
      ∀ k ∈ locales, ∀ gen', NamesAfter E (rules k) text gen gen' → SortableAll ar E locales rules asks texts gen'

/-- The parsers have only been used to parse texts. -/
def OnlyParsed (E : Oracles) (fuel depth : Nat) (locales : List String) (rules : String → List (GRule Attachment)) (s : Sessions W) : Prop :=
  ∀ k ∈ locales, ∃ texts, s.grammars k = parseHistory E fuel depth (Grammar.new (rules k)) texts

theorem history_next (E : Oracles) (fuel depth fuel' depth' : Nat) (gr : Grammar Attachment) (texts : List Str) (text : Str) :
    (basicParse E fuel depth (parseHistory E fuel' depth' gr texts) text).2 = parseHistory E fuel' depth' gr (texts ++ [normalizeSpace text]) := by
  rw [parseHistory, parseHistory, List.foldl_append]; rfl

/-- **C100** (questions) If a turn returns, then the text has got the reply that it should get in its language: the right answer if it can be derived in one of the
languages, otherwise the message that it can not be read in the last one. The facts and rules have not changed. -/
theorem C100_reply (K : KnowledgeBase W ar tables rs) (hrr : HeadsBound rs) (hcore : ∀ p ∈ coreNames, NotDefined K.others K.world p)
    (hbuf : StoresIn K.others l outputRelations K.world) (hempty : l.get K.world = SimpleStore.clear)
    (hnd : ∀ x p, p = "output_not_understood" ∨ p = "output_no_sentence" → findRelations K.modules (l.put x K.world) p = [])
    (E : Oracles) (hne : locales ≠ []) (hdup : locales.Nodup) (hav : ∀ k ∈ locales, k ∈ available)
    (hlang : ∀ k ∈ locales, Language K g wg f yes no (R k) (kinds k) (spec k) (asks k) (rules k))
    (hrule : RepliesWith wg "unknown_word" rule) (hu : UnknownRule rule said)
    (text : Str) (hl : LowerOk E (normalizeSpace text)) (fuel depth n m : Nat) {fuel' depth' : Nat} {s : Sessions W}
    (hg : OnlyParsed E fuel' depth' locales rules s) (hw : s.world = K.world) {optimizer : Option (List (Module W))}
    (hopt : optimizer = none ∨ optimizer = some K.modules ∧ K.SmallSizes ∧ ∀ k ∈ locales, SortableText ar E (rules k) (asks k) text s.gen)
    {s' : Sessions W} {reply : Value}
    (h : turn (solverAt K.modules n).inLocales (languagesPipeline locales available E fuel depth optimizer (solverAt K.modules n)) wg l.inLocales m text s =
      .ok s' reply) :
    s'.world = K.world ∧ OnlyParsed E fuel' depth' locales rules s' ∧
    ∃ k ∈ locales, LanguageOf E locales rules text k ∧ (optimizer = some K.modules → NamesAfter E (rules k) text s.gen s'.gen) ∧
      Answered (program tables rs) E (rules k) (spec k) (asks k) f yes no said text reply := by
  obtain ⟨pre, k, post, rfl, h1, h2⟩ := C100_first E fuel depth text s hne
  have hk : k ∈ pre ++ k :: post := by simp
  have hpre : ∀ p ∈ pre, p ∈ pre ++ k :: post := fun p hp => List.mem_append_left _ hp
  have hdup' : (pre ++ [k]).Nodup := by
    have : (pre ++ [k] ++ post).Nodup := by simpa using hdup
    exact (List.nodup_append.1 this).1
  rw [C100_turn (hav k hk) hdup' (fun p hp => hav p (hpre p hp)) h1 h2] at h
  cases ht : turn (solverAt K.modules n).inSession (sentencePipeline E fuel depth optimizer (solverAt K.modules n)) wg l.inSession m text (s.at k) with
  | oof => rw [ht] at h; cases h
  | err v e => rw [ht] at h; cases h
  | ok v reply' =>
    rw [ht] at h
    simp only [Res.mapWorld, Res.ok.injEq] at h
    obtain ⟨rfl, rfl⟩ := h
    obtain ⟨texts, hgk⟩ := hg k hk
    have L := hlang k hk
    obtain ⟨k1, k2, k3, k4⟩ := C96_turn K hrr hcore hbuf hempty hnd E (rules k) L.ok L.names L.phrases L.questions L.nested hrule hu text hl fuel depth n m texts
      (s := s.at k) hgk hw (hopt.imp_right fun ⟨a, b, c⟩ => ⟨a, b, c k hk⟩) ht
    refine ⟨k1, fun q hq => ?_, k, hk, ⟨pre, post, rfl, fun p hp => ?_, ?_⟩, k3, k4⟩
    · by_cases hqk : q = k
      · subst hqk
        exact ⟨_, by simpa [Sessions.back] using k2⟩
      · obtain ⟨ts, hts⟩ := hg q hq
        by_cases hqp : q ∈ pre
        · exact ⟨ts ++ [normalizeSpace text], by simp only [Sessions.back, hqk, if_false, Sessions.tried, hqp, if_true, hts, history_next]⟩
        · exact ⟨ts, by simp only [Sessions.back, hqk, if_false, Sessions.tried, hqp, hts]⟩
    · obtain ⟨ts, hts⟩ := hg p (hpre p hp)
      obtain ⟨e, he⟩ := h1 p hp
      rw [hts, C33_no_memory_block] at he
      exact no_first (hlang p (hpre p hp)).ok hl he
    · refine h2.imp_right fun hr => ?_
      apply Classical.byContradiction
      intro hno
      apply hr
      have hno' : ∀ d, ¬ WholeDerivation E (rules k) (normalizeSpace text) d := fun d hd => hno ⟨d, hd⟩
      simp only [turn] at ht
      cases he : enter (solverAt K.modules n).inSession (sentencePipeline E fuel depth optimizer (solverAt K.modules n)) (Request.new text, s.at k) with
      | oof => rw [he] at ht; cases ht
      | err st e => rw [he] at ht; cases ht
      | ok st res =>
        obtain ⟨_, hh⟩ := enter_sentence he
        rcases hh with ⟨e, hp, _⟩ | ⟨t, rest, _, _, _, _, _, _, _, _, _, hp, _⟩
        · exact ⟨e, hp⟩
        · rw [show (s.at k).grammar = s.grammars k from rfl, hgk, C33_no_memory_block] at hp
          obtain ⟨c0, d, hc1, hc2, hd, _⟩ := first_derivation L.ok hl hp
          exact absurd ⟨c0, hc1, hc2, hd⟩ (hno' d)

/-- **C100** (dialogs) If a test of a dialog passes, then each text was expected to get the reply that it should get in its language. -/
theorem C100_dialog (K : KnowledgeBase W ar tables rs) (hrr : HeadsBound rs) (hcore : ∀ p ∈ coreNames, NotDefined K.others K.world p)
    (hbuf : StoresIn K.others l outputRelations K.world) (hempty : l.get K.world = SimpleStore.clear)
    (hnd : ∀ x p, p = "output_not_understood" ∨ p = "output_no_sentence" → findRelations K.modules (l.put x K.world) p = [])
    (E : Oracles) (hne : locales ≠ []) (hdup : locales.Nodup) (hav : ∀ k ∈ locales, k ∈ available)
    (hlang : ∀ k ∈ locales, Language K g wg f yes no (R k) (kinds k) (spec k) (asks k) (rules k))
    (hrule : RepliesWith wg "unknown_word" rule) (hu : UnknownRule rule said) (fuel depth n m : Nat) {fuel' depth' : Nat}
    {optimizer : Option (List (Module W))} :
    ∀ (tests : List (Str × Value)) {s s' : Sessions W}, OnlyParsed E fuel' depth' locales rules s → s.world = K.world →
    (∀ p ∈ tests, LowerOk E (normalizeSpace p.1)) →
    (optimizer = none ∨ optimizer = some K.modules ∧ K.SmallSizes ∧ SortableAll ar E locales rules asks (tests.map Prod.fst) s.gen) →
    doRun (solverAt K.modules n).inLocales (languagesPipeline locales available E fuel depth optimizer (solverAt K.modules n)) wg l.inLocales m tests s = .ok s' () →
    s'.world = K.world ∧ ∀ p ∈ tests, ∃ k ∈ locales, LanguageOf E locales rules p.1 k ∧
      Answered (program tables rs) E (rules k) (spec k) (asks k) f yes no said p.1 p.2
  | [], s, s', _, hw, _, _, h => by
    cases h
    exact ⟨hw, by simp⟩
  | (text, expected) :: tests, s, s', hg, hw, hall, hopt, h => by
    simp only [doRun, M.bind_eq_ok] at h
    obtain ⟨s1, output, h1, h2⟩ := h
    obtain ⟨k1, k2, k, hk, k3, k4, k5⟩ := C100_reply K hrr hcore hbuf hempty hnd E hne hdup hav hlang hrule hu text (hall _ List.mem_cons_self) fuel depth n m
      hg hw (hopt.imp_right fun ⟨a, b, c⟩ => ⟨a, b, c.1⟩) h1
    split at h2
    · rename_i he
      subst he
      obtain ⟨r1, r2⟩ := C100_dialog K hrr hcore hbuf hempty hnd E hne hdup hav hlang hrule hu fuel depth n m tests k2 k1
        (fun p hp => hall p (List.mem_cons_of_mem _ hp)) (hopt.imp_right fun ⟨a, b, c⟩ => ⟨a, b, c.2 k hk _ (k4 a)⟩) h2
      refine ⟨r1, fun p hp => ?_⟩
      rcases List.mem_cons.1 hp with rfl | hp
      · exact ⟨k, hk, k3, k5⟩
      · exact r2 p hp
    · cases h2

end

/-! ### An example: questions in Dutch and English -/

namespace Ex

/-- `s(E1) -> 'vind' nbar(E1)`, `noun(E1) -> 'ouder'` and `noun(E1) -> 'kind'`. -/
def ruleVind := kinRule (rel cRoot [cE1]) [exW ['v', 'i', 'n', 'd'], exSep, rel cNbar [cE1]] askOne
def ruleOuder := kinRule (rel cNoun [cE1]) [exW ['o', 'u', 'd', 'e', 'r']] (constant (.list [.tuple [.str "parent", .var "E1"]]))
def ruleKind := kinRule (rel cNoun [cE1]) [exW ['k', 'i', 'n', 'd']] (constant (.list [.tuple [.str "child", .var "E1"]]))

def dutchGrammar : List (GRule Attachment) := [ruleVind, ruleNbar, ruleOuder, ruleKind]

def dutchSpec (r : GRule Attachment) (_ : List Value) : RuleParts :=
  if r.cons = ruleVind.cons then .parts [] [.app 2 []]
  else if r.cons = ruleNbar.cons then .parts [] [.app 0 []]
  else if r.cons = ruleOuder.cons then .parts [] [.basic (.atom "parent" [.var "E1"])]
  else .parts [] [.basic (.atom "child" [.var "E1"])]

def dutchAsks (_ : GRule Attachment) : Asked := .value "E1"

theorem dutch_variants {r : GRule Attachment} (h : r ∈ dutchGrammar) : ruleVariants r = [r] := by
  apply C36_no_optional
  simp only [dutchGrammar, List.mem_cons, List.not_mem_nil, or_false] at h
  rcases h with rfl | rfl | rfl | rfl <;> decide

theorem dutch_usable {r : GRule Attachment} (h : Usable dutchGrammar r) : r ∈ dutchGrammar := by
  obtain ⟨r0, h0, hv⟩ := h
  rw [dutch_variants h0, List.mem_singleton] at hv
  subst hv
  exact h0

theorem quest_vind : QuestionRule kinAr kinSlots kinKinds dutchSpec dutchAsks ruleVind where
  names := by decide +kernel
  nodup := by decide +kernel
  parts := fun ws _ => by
    refine ⟨⟨[.any], [true], [], true⟩, _, rfl, ⟨rfl, by decide⟩, ⟨by decide +kernel, rfl, by decide +kernel, by decide +kernel,
      by decide +kernel, by decide +kernel, kidsCheck_ok (by decide +kernel), by decide +kernel, by decide +kernel⟩, ?_, by decide +kernel, ?_⟩
    · intro x hx
      cases hx
      decide +kernel
    intro f hf vs us s hl he hfs
    cases hf
    match vs, hl with
    | [v0, v1, v2], _ =>
      change askOne [v2] = _ at hfs
      cases v2 <;> try (cases hfs; done)
      cases hfs
      simp only [evalAll, evalPart, evalMany, List.getD, List.getElem?_cons_zero, List.getElem?_cons_succ, Option.getD_some, atomsOf, List.isEmpty_nil,
        if_true, List.append_nil, Except.ok.injEq] at he
      rw [← he]; rfl
  noExec := rfl
  noDialog := fun _ => rfl

theorem spec_ouder : SpecRule kinAr kinSlots kinKinds dutchSpec ruleOuder :=
  spec_constant rfl (fun _ => rfl) (by decide +kernel) (by decide +kernel) ⟨by decide +kernel, rfl, by decide +kernel, by decide +kernel,
    by decide +kernel, by decide +kernel, kidsCheck_ok (by decide +kernel), by decide +kernel, by decide +kernel⟩ ⟨_, rfl⟩ (fun _ => rfl) rfl

theorem spec_kind : SpecRule kinAr kinSlots kinKinds dutchSpec ruleKind :=
  spec_constant rfl (fun _ => rfl) (by decide +kernel) (by decide +kernel) ⟨by decide +kernel, rfl, by decide +kernel, by decide +kernel,
    by decide +kernel, by decide +kernel, kidsCheck_ok (by decide +kernel), by decide +kernel, by decide +kernel⟩ ⟨_, rfl⟩ (fun _ => rfl) rfl

theorem dutch_language : Language kinHomeKB homeIntents.get mixedWrite asList ['y', 'e', 's'] ['n', 'o'] kinSlots kinKinds dutchSpec dutchAsks dutchGrammar where
  ok := by constructor <;> decide +kernel
  names := by
    have occ : ∀ c, Occurs dutchGrammar c → c ∈ dutchGrammar.flatMap fun r => r.ante :: r.cons := by
      rintro c ⟨r, hr, hc⟩
      exact List.mem_flatMap.2 ⟨r, hr, by rcases hc with rfl | hc <;> simp [*]⟩
    have h1 : ∀ x ∈ dutchGrammar.flatMap (fun r => r.ante :: r.cons), ∀ y ∈ dutchGrammar.flatMap (fun r => r.ante :: r.cons),
        x.predicate = y.predicate → x.pos = y.pos → x.args.length = y.args.length := by decide +kernel
    have h2 : ∀ c ∈ dutchGrammar.flatMap (fun r => r.ante :: r.cons), c.pos ≠ .relation →
        (∀ r ∈ dutchGrammar, ¬ (r.ante.predicate = c.predicate ∧ r.ante.args.length = c.args.length)) ∧ ¬ (c.predicate = cDelta ∧ c.args.length = 1) := by
      decide +kernel
    exact ⟨fun x y hx hy => h1 x (occ x hx) y (occ y hy), fun c hc => h2 c (occ c hc)⟩
  phrases := fun r h hne => by
    have h := dutch_usable h
    simp only [dutchGrammar, List.mem_cons, List.not_mem_nil, or_false] at h
    rcases h with rfl | rfl | rfl | rfl
    · exact absurd rfl hne
    · have hs := spec_nbar
      exact ⟨hs.names, hs.nodup, fun ws v hv e => hs.value ws v hv e, fun ws ns e hv e' => hs.parts ws ns e hv e', hs.noExec, hs.noDialog⟩
    · exact spec_ouder
    · exact spec_kind
  questions := fun r h hr => by
    have h := dutch_usable h
    simp only [dutchGrammar, List.mem_cons, List.not_mem_nil, or_false] at h
    rcases h with rfl | rfl | rfl | rfl
    · exact ⟨quest_vind, mixed_served _⟩
    · exact absurd hr (by decide)
    · exact absurd hr (by decide)
    · exact absurd hr (by decide)
  nested := fun r h => by
    have : ∀ r ∈ dutchGrammar, ∀ c ∈ r.cons, c.pos = .relation → c.predicate ≠ cRoot := by decide +kernel
    exact this r (dutch_usable h)

theorem english_language : Language kinHomeKB homeIntents.get mixedWrite asList ['y', 'e', 's'] ['n', 'o'] kinSlots kinKinds typedSpec typedAsks typedGrammar :=
  ⟨typed_rulesOk, typed_names, typed_spec, mixed_quest, typed_nest⟩

/-- The languages of the system. -/
def homeRules (k : String) : List (GRule Attachment) := if k = "nl_NL" then dutchGrammar else typedGrammar
def homeSpec (k : String) : GRule Attachment → List Value → RuleParts := if k = "nl_NL" then dutchSpec else typedSpec
def homeAsks (k : String) : GRule Attachment → Asked := if k = "nl_NL" then dutchAsks else typedAsks

def vindText : Str := ['v', 'i', 'n', 'd', ' ', 'o', 'u', 'd', 'e', 'r']

/-- A question in English, one in Dutch, and a text that is neither. -/
def homeTests : List (Str × Value) :=
  [(whichText, .list [.str "mary", .str "bob"]), (vindText, .str "mary"), (someText, .str "Could not understand: someone ...")]

def homeStart : Sessions Home := ⟨fun k => Grammar.new (homeRules k), ⟨0, []⟩, kinHomeKB.world⟩

theorem home_dialog : ∃ s', doRun (solverAt kinHomeKB.modules 12).inLocales (languagesPipeline ["nl_NL", "en_US"] ["en_US", "nl_NL"] whoOracles 200 20 none
    (solverAt kinHomeKB.modules 12)) mixedWrite homeBuffer.inLocales 2 homeTests homeStart = .ok s' () := by
  have h : isOk (doRun (solverAt kinHomeKB.modules 12).inLocales (languagesPipeline ["nl_NL", "en_US"] ["en_US", "nl_NL"] whoOracles 200 20 none
    (solverAt kinHomeKB.modules 12)) mixedWrite homeBuffer.inLocales 2 homeTests homeStart) = true := by
    decide +kernel
  exact isOk_iff.1 h

theorem dutch_refused {text : Str} (h : (match (basicParse whoOracles 200 20 (Grammar.new dutchGrammar) text).1 with | .ok ([], _) => true | _ => false) = true) :
    Refused whoOracles 200 20 (Grammar.new dutchGrammar) text := by
  split at h
  · rename_i e hp
    exact ⟨e, hp⟩
  · cases h

/-- The languages of the texts: the first is English, the second Dutch. -/
example : LanguageOf whoOracles ["nl_NL", "en_US"] homeRules whichText "en_US" ∧ LanguageOf whoOracles ["nl_NL", "en_US"] homeRules vindText "nl_NL" := by
  refine ⟨⟨["nl_NL"], [], rfl, fun p hp => ?_, .inl rfl⟩, ⟨[], ["en_US"], rfl, by simp, .inr ?_⟩⟩
  · obtain rfl := List.mem_singleton.1 hp
    obtain ⟨e, he⟩ := dutch_refused (text := whichText) (by decide +kernel)
    exact no_first dutch_language.ok (by intro i; simp [whoOracles]) he
  · have h : (match (basicParse whoOracles 200 20 (Grammar.new dutchGrammar) vindText).1 with | .ok (_ :: _, _) => true | _ => false) = true := by decide +kernel
    split at h
    · rename_i hp
      obtain ⟨c, d, h1, h2, h3, _⟩ := first_derivation dutch_language.ok (by intro i; simp [whoOracles]) hp
      exact ⟨d, c, h1, h2, h3⟩
    · cases h

/-- **C100** applies to a turn: the English question is answered by the second language. -/
example (wg : Grammar WriteSem) (m : Nat) :
    turn (solverAt kinHomeKB.modules 12).inLocales (languagesPipeline ["nl_NL", "en_US"] ["en_US", "nl_NL"] whoOracles 200 20 none (solverAt kinHomeKB.modules 12))
      wg homeBuffer.inLocales m whichText homeStart =
    (turn (solverAt kinHomeKB.modules 12).inSession (sentencePipeline whoOracles 200 20 none (solverAt kinHomeKB.modules 12)) wg homeBuffer.inSession m whichText
      (homeStart.at "en_US")).mapWorld ((homeStart.tried whoOracles 200 20 whichText ["nl_NL"]).back "en_US") :=
  C100_turn (pre := ["nl_NL"]) (post := []) (by decide) (by decide) (by decide)
    (fun p hp => by obtain rfl := List.mem_singleton.1 hp; exact dutch_refused (by decide +kernel)) (.inl rfl) wg homeBuffer m

/-- **C100** applies: the replies in both languages are right. -/
example : ∀ p ∈ homeTests, ∃ k ∈ ["nl_NL", "en_US"], LanguageOf whoOracles ["nl_NL", "en_US"] homeRules p.1 k ∧
    Answered (program [kinTables, [], []] kinRules) whoOracles (homeRules k) (homeSpec k) (homeAsks k) asList ['y', 'e', 's'] ['n', 'o'] couldText p.1 p.2 := by
  obtain ⟨s', h⟩ := home_dialog
  refine (C100_dialog (g := homeIntents.get) (R := fun _ => kinSlots) (kinds := fun _ => kinKinds) kinHomeKB kin_heads kinHome_core kinHome_stores rfl kinHome_unreported whoOracles
    (by simp) (by decide) (by decide) ?_ mixed_rules.1 mixed_unknown 200 20 12 2 (fuel' := 200) (depth' := 20) homeTests
    (fun k _ => ⟨[], rfl⟩) rfl (fun p _ => by intro i; simp [whoOracles]) (.inl rfl) h).2
  intro k hk
  simp only [List.mem_cons, List.not_mem_nil, or_false] at hk
  rcases hk with rfl | rfl
  · exact dutch_language
  · exact english_language

end Ex

end Verif

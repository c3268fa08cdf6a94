import Verif.Props.MixedDialogs
import Verif.LoggingLemmas

/-!
# C97: what the parser remembers does not matter

Every parse leaves a start rule in the grammar. A turn, with everything that comes after the parser, is the same whatever was parsed before.
-/

namespace Verif

section
variable {S α β : Type} {σ : S → S}

/-- Changing the state before or after `m` is the same. -/
def Commutes (σ : S → S) (m : M S α) : Prop := ∀ s, m (σ s) = (m s).mapWorld σ

theorem commutes_pure (a : α) : Commutes σ (pure a) := fun _ => rfl

theorem commutes_throw (e : Err) : Commutes σ (M.throw e : M S α) := fun _ => rfl

theorem commutes_bind {m : M S α} {f : α → M S β} (hm : Commutes σ m) (hf : ∀ a, Commutes σ (f a)) : Commutes σ (m >>= f) := by
  intro s
  rw [M.bind_run, M.bind_run, hm s]
  cases m s with
  | ok s' a => exact hf a s'
  | err s' e => rfl
  | oof => rfl

/-- As `commutes_bind`, when what comes first does more with the state. -/
theorem bind_mapWorld {m : M S α} {f : α → M S β} {s s' : S} (hm : m s' = (m s).mapWorld σ) (hf : ∀ a, Commutes σ (f a)) :
    (m >>= f) s' = ((m >>= f) s).mapWorld σ := by
  rw [M.bind_run, M.bind_run, hm]
  cases m s with
  | ok s' a => exact hf a s'
  | err s' e => rfl
  | oof => rfl

theorem commutes_gets {f : S → α} (h : ∀ s, f (σ s) = f s) : Commutes σ (M.gets f) := fun s => by simp [Res.mapWorld, h]

theorem commutes_modify {f : S → S} (h : ∀ s, f (σ s) = σ (f s)) : Commutes σ (M.modify f) := fun s => by simp [Res.mapWorld, h]

theorem commutes_ite {p : Prop} [Decidable p] {m m' : M S α} (h : Commutes σ m) (h' : Commutes σ m') : Commutes σ (if p then m else m') := by
  split <;> assumption

end

section
variable {W : Type}

/-- The session, with another grammar. -/
def withGrammar (gr : Grammar Attachment) (s : Session W) : Session W := { s with grammar := gr }

/-- The same for a request in a session. -/
def underGrammar {A : Type} (gr : Grammar Attachment) (s : A × Session W) : A × Session W := (s.1, withGrammar gr s.2)

variable {gr : Grammar Attachment} {α A : Type}

theorem commutes_inWorld (m : M W α) : Commutes (withGrammar gr) (inWorld m) := by
  intro s
  simp only [inWorld, withGrammar]
  cases m s.world <;> rfl

theorem commutes_inGen (m : M Gen α) : Commutes (withGrammar (W := W) gr) (inGen m) := by
  intro s
  simp only [inGen, withGrammar]
  cases m s.gen <;> rfl

theorem commutes_onWorld {m : M (Session W) α} (h : Commutes (withGrammar gr) m) : Commutes (underGrammar (A := A) gr) (onWorld m) := by
  intro s
  simp only [onWorld, underGrammar, h s.2]
  cases m s.2 <;> rfl

variable {P : Type}

theorem commutes_exec {p : Processor P (Session W)} (h : ∀ req, Commutes (withGrammar gr) (p.process req)) : Commutes (underGrammar gr) (execProcess p) :=
  fun s => commutes_onWorld (h s.1) s

theorem commutes_tryFirst {p : Processor P (Session W)} (h : ∀ req, Commutes (withGrammar gr) (p.process req))
    {next : M (Request P × Session W) BlockResult} (hn : Commutes (underGrammar gr) next) : Commutes (underGrammar gr) (tryFirst p next) := by
  refine commutes_bind (commutes_exec h) fun r => commutes_ite (commutes_pure _) (commutes_bind (commutes_modify fun _ => rfl) fun _ => ?_)
  cases r.products with
  | nil => exact commutes_pure _
  | cons q _ => exact commutes_bind (commutes_modify fun _ => rfl) fun _ => commutes_bind hn fun _ => commutes_pure _

theorem commutes_findOneProducts {i : Nat} {next : M (Request P × Session W) BlockResult} (hn : Commutes (underGrammar gr) next) :
    ∀ (ps : List P) last, Commutes (underGrammar gr) (findOneProducts i next ps last)
  | [], _ => commutes_pure _
  | _ :: ps, _ => commutes_bind (commutes_modify fun _ => rfl) fun _ => commutes_bind hn fun _ =>
      commutes_ite (commutes_pure _) (commutes_findOneProducts hn ps _)

theorem commutes_composer (optimizer : Option (List (Module W))) (req : Request (Product (ParseTree Attachment))) :
    Commutes (withGrammar gr) ((semanticComposer 1 0 optimizer).process req) := by
  simp only [semanticComposer]
  split
  · exact commutes_bind (commutes_inGen _) fun _ => commutes_bind (commutes_inWorld _) fun _ => commutes_pure _
  · exact commutes_throw _

theorem commutes_writeAll (api : SolverApi W) : ∀ vs, Commutes (withGrammar gr) (writeAll api.inSession vs)
  | [] => commutes_pure _
  | _ :: vs => commutes_bind (commutes_inWorld _) fun _ => commutes_writeAll api vs

theorem commutes_executor (api : SolverApi W) (req : Request (Product (ParseTree Attachment))) :
    Commutes (withGrammar gr) ((atomExecutor 2 1 api.inSession).process req) := by
  simp only [atomExecutor]
  split
  · exact commutes_bind (commutes_writeAll api _) fun _ => commutes_bind (commutes_inWorld _) fun _ => commutes_bind (commutes_inWorld _) fun _ => commutes_pure _
  · exact commutes_throw _

/-- **C97** A turn in a session in which other texts were parsed before has the same outcome: the same reply or exception, the same world and the same names. -/
theorem C97_turn (E : Oracles) (fuel depth : Nat) (optimizer : Option (List (Module W))) (api : SolverApi W) (wg : Grammar WriteSem) (l : Lens W SimpleStore)
    (m fuel' depth' : Nat) (g : Grammar Attachment) (texts texts' : List Str) (text : Str) (s : Session W) :
    turn api.inSession (sentencePipeline E fuel depth optimizer api) wg l.inSession m text (withGrammar (parseHistory E fuel' depth' g texts') s) =
      (turn api.inSession (sentencePipeline E fuel depth optimizer api) wg l.inSession m text (withGrammar (parseHistory E fuel' depth' g texts) s)).mapWorld
        (withGrammar (parseHistory E fuel' depth' g (texts' ++ [normalizeSpace text]))) := by
  have hp : (basicParse E fuel depth (parseHistory E fuel' depth' g texts') text).1 = (basicParse E fuel depth (parseHistory E fuel' depth' g texts) text).1 := by
    rw [C33_no_memory_block, C33_no_memory_block]
  have hg : ∀ ts, (basicParse E fuel depth (parseHistory E fuel' depth' g ts) text).2 = parseHistory E fuel' depth' g (ts ++ [normalizeSpace text]) := by
    intro ts
    rw [parseHistory, parseHistory, List.foldl_append]; rfl
  have hfirst : execProcess (basicParser (W := W) 0 E fuel depth) (Request.new text, withGrammar (parseHistory E fuel' depth' g texts') s) =
      (execProcess (basicParser 0 E fuel depth) (Request.new text, withGrammar (parseHistory E fuel' depth' g texts) s)).mapWorld
        (underGrammar (parseHistory E fuel' depth' g (texts' ++ [normalizeSpace text]))) := by
    simp only [execProcess, onWorld, basicParser]
    rw [show (Request.new (P := Product (ParseTree Attachment)) text).text = text from rfl]
    simp only [withGrammar]
    have h1 := hg texts'
    cases e1 : basicParse E fuel depth (parseHistory E fuel' depth' g texts') text with
    | mk o1 g1 =>
      cases e2 : basicParse E fuel depth (parseHistory E fuel' depth' g texts) text with
      | mk o2 g2 =>
        rw [e1, e2] at hp
        rw [e1] at h1
        obtain rfl : o1 = o2 := hp
        obtain rfl : g1 = _ := h1
        cases o1 <;> rfl
  have hnext : Commutes (underGrammar (W := W) (parseHistory E fuel' depth' g (texts' ++ [normalizeSpace text])))
      (runBlocks [⟨.tryFirst, semanticComposer 1 0 optimizer⟩, ⟨.tryFirst, atomExecutor 2 1 api.inSession⟩]) :=
    commutes_tryFirst (commutes_composer optimizer) (commutes_tryFirst (commutes_executor api) (commutes_pure _))
  have henter : enter api.inSession (sentencePipeline E fuel depth optimizer api) (Request.new text, withGrammar (parseHistory E fuel' depth' g texts') s) =
      (enter api.inSession (sentencePipeline E fuel depth optimizer api) (Request.new text, withGrammar (parseHistory E fuel' depth' g texts) s)).mapWorld
        (underGrammar (parseHistory E fuel' depth' g (texts' ++ [normalizeSpace text]))) := by
    unfold enter
    have hl : (sentencePipeline E fuel depth optimizer api).getLast? = some ⟨.tryFirst, atomExecutor 2 1 api.inSession⟩ := rfl
    rw [hl]
    refine bind_mapWorld (bind_mapWorld hfirst fun r => commutes_ite (commutes_pure _)
      (commutes_bind (commutes_modify fun _ => rfl) fun _ => commutes_findOneProducts hnext _ _)) fun r => commutes_ite ?_ ?_
    · exact commutes_bind (commutes_onWorld (commutes_inWorld _)) fun _ => commutes_pure _
    · refine commutes_bind (commutes_gets fun _ => rfl) fun p => ?_
      cases p with
      | none => exact commutes_throw _
      | some p => exact commutes_pure _
  unfold turn
  rw [henter]
  cases enter api.inSession (sentencePipeline E fuel depth optimizer api) (Request.new text, withGrammar (parseHistory E fuel' depth' g texts) s) with
  | ok st r =>
    simp only [Res.mapWorld]
    rw [generateOutput_inSession]
    exact commutes_inWorld _ _
  | err st e => rfl
  | oof => rfl

theorem withGrammar_twice (gr gr' : Grammar Attachment) (s : Session W) : withGrammar gr (withGrammar gr' s) = withGrammar gr s := rfl

/-- **C97** (dialogs) A dialog test after other texts has the same outcome: it passes or fails in the same way, with the same world and the same names. -/
theorem C97_dialog (E : Oracles) (fuel depth : Nat) (optimizer : Option (List (Module W))) (api : SolverApi W) (wg : Grammar WriteSem) (l : Lens W SimpleStore)
    (m fuel' depth' : Nat) (g : Grammar Attachment) : ∀ (tests : List (Str × Value)) (texts texts' : List Str) (s : Session W),
    (doRun api.inSession (sentencePipeline E fuel depth optimizer api) wg l.inSession m tests (withGrammar (parseHistory E fuel' depth' g texts') s)).mapWorld
      (withGrammar []) =
    (doRun api.inSession (sentencePipeline E fuel depth optimizer api) wg l.inSession m tests (withGrammar (parseHistory E fuel' depth' g texts) s)).mapWorld
      (withGrammar [])
  | [], texts, texts', s => rfl
  | (text, expected) :: tests, texts, texts', s => by
    have h1 := C97_turn E fuel depth optimizer api wg l m fuel' depth' g texts texts' text s
    have h2 := C97_turn E fuel depth optimizer api wg l m fuel' depth' g texts texts text s
    simp only [doRun, M.bind_run, h1]
    cases ht : turn api.inSession (sentencePipeline E fuel depth optimizer api) wg l.inSession m text (withGrammar (parseHistory E fuel' depth' g texts) s) with
    | ok s1 v =>
      rw [ht] at h2
      simp only [Res.mapWorld, Res.ok.injEq, and_true] at h2
      dsimp only [Res.mapWorld]
      by_cases he : v = expected
      · simp only [if_pos he]
        have := C97_dialog E fuel depth optimizer api wg l m fuel' depth' g tests (texts ++ [normalizeSpace text]) (texts' ++ [normalizeSpace text]) s1
        rw [← h2] at this
        exact this
      · simp only [if_neg he]
        rfl
    | err s1 e => rfl
    | oof => rfl

end

section
variable {W : Type} {ar : String → Option Nat} {tables : List (Dict (List (List Value)))} {rs : List HornRule} {l : Lens W SimpleStore} {g : W → InfState}
  {wg : Grammar WriteSem} {f : List Value → Except Err Value} {yes no said : Str} {rule : WRule}
  {R : List String} {kinds : Str → Nat → Kind} {spec : GRule Attachment → List Value → RuleParts} {asks : GRule Attachment → Asked}

open Classical in
/-- The tests whose texts can be derived from the grammar. -/
noncomputable def understood (E : Oracles) (rules : List (GRule Attachment)) (tests : List (Str × Value)) : List (Str × Value) :=
  tests.filter fun p => decide (∃ d, WholeDerivation E rules (normalizeSpace p.1) d)

theorem understood_yes {E : Oracles} {rules : List (GRule Attachment)} {p : Str × Value} {tests : List (Str × Value)}
    (h : ∃ d, WholeDerivation E rules (normalizeSpace p.1) d) : understood E rules (p :: tests) = p :: understood E rules tests := by
  rw [understood, List.filter_cons_of_pos (by simpa using h)]; rfl

theorem understood_no {E : Oracles} {rules : List (GRule Attachment)} {p : Str × Value} {tests : List (Str × Value)}
    (h : ∀ d, ¬ WholeDerivation E rules (normalizeSpace p.1) d) : understood E rules (p :: tests) = understood E rules tests := by
  rw [understood, List.filter_cons_of_neg (by simpa using h)]; rfl

/-- **C97** (texts that are left out) The texts that were not understood can be left out of a dialog: the questions get the same replies without them. -/
theorem C97_left_out (K : KnowledgeBase W ar tables rs) (hrr : HeadsBound rs) (hcore : ∀ p ∈ coreNames, NotDefined K.others K.world p)
    (hbuf : StoresIn K.others l outputRelations K.world) (hempty : l.get K.world = SimpleStore.clear)
    (hnd : ∀ x p, p = "output_not_understood" ∨ p = "output_no_sentence" → findRelations K.modules (l.put x K.world) p = [])
    (E : Oracles) (rules : List (GRule Attachment)) (ok : RulesOk rules) (names : NamesOk rules)
    (hspec : ∀ r, Usable rules r → r.ante.predicate ≠ cRoot → SpecRule ar R kinds spec r)
    (hquest : ∀ r, Usable rules r → r.ante.predicate = cRoot → QuestionRule ar R kinds spec asks r ∧ Served K.others K.world g wg f yes no (asks r))
    (hnest : ∀ r, Usable rules r → ∀ c ∈ r.cons, c.pos = .relation → c.predicate ≠ cRoot)
    (hrule : RepliesWith wg "unknown_word" rule) (hu : UnknownRule rule said) (fuel depth n m : Nat) {fuel' depth' : Nat}
    {optimizer : Option (List (Module W))} :
    ∀ (tests : List (Str × Value)) (texts : List Str) {s s' : Session W}, s.grammar = parseHistory E fuel' depth' (Grammar.new rules) texts →
    s.world = K.world → (∀ p ∈ tests, LowerOk E (normalizeSpace p.1)) →
    (optimizer = none ∨ optimizer = some K.modules ∧ K.SmallSizes ∧ SortableTexts ar E rules asks (tests.map Prod.fst) s.gen) →
    doRun (solverAt K.modules n).inSession (sentencePipeline E fuel depth optimizer (solverAt K.modules n)) wg l.inSession m tests s = .ok s' () →
    ∃ s'', doRun (solverAt K.modules n).inSession (sentencePipeline E fuel depth optimizer (solverAt K.modules n)) wg l.inSession m (understood E rules tests) s =
      .ok s'' () ∧ s''.world = s'.world ∧ s''.gen = s'.gen
  | [], texts, s, s', _, hw, _, _, h => ⟨s', h, rfl, rfl⟩
  | (text, expected) :: tests, texts, s, s', hg, hw, hall, hopt, h => by
    simp only [doRun, M.bind_eq_ok] at h
    obtain ⟨s1, output, h1, h2⟩ := h
    obtain ⟨k1, k2, k3, _⟩ := C96_turn K hrr hcore hbuf hempty hnd E rules ok names hspec hquest hnest hrule hu text (hall _ List.mem_cons_self) fuel depth n m
      texts hg hw (hopt.imp_right fun ⟨a, b, c⟩ => ⟨a, b, c.1⟩) h1
    split at h2
    · rename_i he
      subst he
      obtain ⟨s2, r1, r2, r3⟩ := C97_left_out K hrr hcore hbuf hempty hnd E rules ok names hspec hquest hnest hrule hu fuel depth n m tests _ k2 k1
        (fun p hp => hall p (List.mem_cons_of_mem _ hp)) (hopt.imp_right fun ⟨a, b, c⟩ => ⟨a, b, c.2 _ (k3 a)⟩) h2
      by_cases hder : ∃ d, WholeDerivation E rules (normalizeSpace text) d
      · refine ⟨s2, ?_, r2, r3⟩
        rw [understood_yes hder]
        simp only [doRun]
        rw [M.bind_ok h1, if_pos rfl]
        exact r1
      · have hno : ∀ d, ¬ WholeDerivation E rules (normalizeSpace text) d := fun d hd => hder ⟨d, hd⟩
        obtain ⟨rfl, _⟩ := C96_refused (ms := K.others) E rules ok names hrule hu text (hall _ List.mem_cons_self) optimizer fuel depth n m texts hg
          (by rw [hw]; exact hbuf) (by rw [hw]; exact hempty) (by rw [hw]; exact hnd) hno h1
        rw [understood_no hno]
        have hd := C97_dialog E fuel depth optimizer (solverAt K.modules n) wg l m fuel' depth' (Grammar.new rules) (understood E rules tests)
          (texts ++ [normalizeSpace text]) texts s
        rw [show withGrammar (parseHistory E fuel' depth' (Grammar.new rules) texts) s = s by rw [← hg]; rfl] at hd
        rw [show doRun (solverAt K.modules n).inSession (sentencePipeline E fuel depth optimizer (solverAt K.modules n)) wg l.inSession m (understood E rules tests)
          (withGrammar (parseHistory E fuel' depth' (Grammar.new rules) (texts ++ [normalizeSpace text])) s) = _ from r1] at hd
        cases hr : doRun (solverAt K.modules n).inSession (sentencePipeline E fuel depth optimizer (solverAt K.modules n)) wg l.inSession m
          (understood E rules tests) s with
        | ok s3 _ =>
          rw [hr] at hd
          simp only [Res.mapWorld, Res.ok.injEq, and_true] at hd
          refine ⟨s3, rfl, ?_, ?_⟩
          · exact (congrArg Session.world hd).trans r2
          · exact (congrArg Session.gen hd).trans r3
        | err s3 e => rw [hr] at hd; cases hd
        | oof => rw [hr] at hd; cases hd
    · cases h2

end

namespace Ex

/-- **C97** applies: the two questions of the dialog have the same replies without the text between them. -/
example : ∃ s'', doRun (solverAt kinHomeKB.modules 12).inSession (sentencePipeline whoOracles 200 20 (some kinHomeKB.modules)
    (solverAt kinHomeKB.modules 12)) mixedWrite homeBuffer.inSession 2 [(whichText, .list [.str "mary", .str "bob"]), (doesText, .str "no")]
    ⟨Grammar.new typedGrammar, ⟨0, []⟩, kinHomeKB.world⟩ = .ok s'' () := by
  obtain ⟨s', h⟩ := mixed_dialog
  obtain ⟨s'', h, _⟩ := C97_left_out kinHomeKB kin_heads kinHome_core kinHome_stores rfl kinHome_unreported whoOracles typedGrammar typed_rulesOk typed_names
    typed_spec mixed_quest typed_nest mixed_rules.1 mixed_unknown 200 20 12 2 (fuel' := 200) (depth' := 20) mixedTests [] rfl rfl
    (fun p _ => by intro i; simp [whoOracles]) (.inr ⟨rfl, kinHome_sizes.1, mixed_sortable⟩) h
  refine ⟨s'', ?_⟩
  have : understood whoOracles typedGrammar mixedTests = [(whichText, .list [.str "mary", .str "bob"]), (doesText, .str "no")] := by
    rw [mixedTests, understood_yes typed_questions.1, understood_no some_unreadable, understood_yes typed_questions.2.1]
    rfl
  rw [← this]
  exact h

/-- **C97** applies to a session in which a text was parsed before. -/
example : ∃ s' : Session Home, turn (solverAt kinHomeKB.modules 12).inSession (sentencePipeline whoOracles 200 20 none (solverAt kinHomeKB.modules 12)) mixedWrite
    homeBuffer.inSession 2 findText (withGrammar (parseHistory whoOracles 200 20 (Grammar.new typedGrammar) [whichText, findText])
      ⟨Grammar.new typedGrammar, ⟨0, []⟩, kinHomeKB.world⟩) = .ok s' (.str "mary") := by
  have h : replyOf (turn (solverAt kinHomeKB.modules 12).inSession (sentencePipeline whoOracles 200 20 none (solverAt kinHomeKB.modules 12)) mixedWrite
    homeBuffer.inSession 2 findText ⟨Grammar.new typedGrammar, ⟨0, []⟩, kinHomeKB.world⟩) = some (.str "mary") := by decide +kernel
  have hc := C97_turn whoOracles 200 20 none (solverAt kinHomeKB.modules 12) mixedWrite homeBuffer 2 200 20 (Grammar.new typedGrammar) [] [whichText, findText]
    findText ⟨Grammar.new typedGrammar, ⟨0, []⟩, kinHomeKB.world⟩
  rw [show withGrammar (parseHistory whoOracles 200 20 (Grammar.new typedGrammar) []) (⟨Grammar.new typedGrammar, ⟨0, []⟩, kinHomeKB.world⟩ : Session Home) =
    ⟨Grammar.new typedGrammar, ⟨0, []⟩, kinHomeKB.world⟩ from rfl] at hc
  rw [hc]
  unfold replyOf at h
  generalize turn (solverAt kinHomeKB.modules 12).inSession (sentencePipeline whoOracles 200 20 none (solverAt kinHomeKB.modules 12)) mixedWrite
    homeBuffer.inSession 2 findText ⟨Grammar.new typedGrammar, ⟨0, []⟩, kinHomeKB.world⟩ = r at h ⊢
  cases r with
  | ok s v => cases h; exact ⟨_, rfl⟩
  | err s e => cases h
  | oof => cases h

end Ex

end Verif

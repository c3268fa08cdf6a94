import Verif.Props.OptimisedQuestions

/-!
# C96: dialogs in which some texts can not be read

In a dialog some texts are questions of the grammar and others are not. The write grammar of a system starts with the rules of `en_us_write`
(`tests/integration/chat80/test.py:81`), so that it has a reply for both.
-/

namespace Verif

section
variable {W : Type} {ms : List (Module W)} {l : Lens W SimpleStore} {wg : Grammar WriteSem} {rule : WRule} {said : Str}

/-- `s() -> 'text' ' ' text(E1)` with the condition `[('output_type', 'unknown_word'), ('output_unknown_word', E1)]`
(`richard/grammar/en_us_write.py:14-17`). -/
structure UnknownRule (rule : WRule) (text : Str) : Prop where
  condition : ForType rule "unknown_word" [.tuple [.str "output_unknown_word", .var "E1"]]
  cons : rule.cons = [textCons text, ⟨[' '], [], .word, false, true⟩, overE1 ['t', 'e', 'x', 't']]
  post : ∀ f, ¬ PostBy rule f

theorem unknown_reply {w : W} {k : Nat} (hm : StoresIn ms l outputRelations w) {part : String}
    (hw : Represents (l.get w) (stored [("output_type", [.str "unknown_word"]), ("output_unknown_word", [.str part])]))
    (hrule : RepliesWith wg "unknown_word" rule) (hl : UnknownRule rule said) (n : Nat) :
    generateOutput (solverAt (modelOf ms) (k + 1)) wg l (n + 1) w = .ok (l.put SimpleStore.clear w) (.str (String.ofList said ++ " " ++ part)) := by
  have hlog : BufferOk (stored [("output_type", [.str "unknown_word"]), ("output_unknown_word", [.str part])]) := by
    refine bufferOk_stored fun a ha => ?_
    simp only [List.mem_cons, List.not_mem_nil, or_false] at ha
    rcases ha with rfl | rfl
    · exact ⟨["type"], by decide +kernel, by decide, rfl, by simp; exact ⟨by simp, rfl, rfl⟩⟩
    · exact ⟨["word"], (by decide +kernel : outputRelations.get "output_unknown_word" = some ["word"]), by decide, rfl, by simp; exact ⟨by simp, rfl, rfl⟩⟩
  have hty := fun t' => (isStored_type (t := "unknown_word") (more := [("output_unknown_word", [.str part])]) (by simp) t')
  obtain ⟨b, hc, hb⟩ : ∃ b, CondHolds (solverAt (modelOf ms) (k + 1)) [] w rule b ∧ b.get "E1" = some (.str part) := by
    have h0 : anteBinding rule.ante.args [] = [] := by simp [anteBinding]
    have hcond := hl.condition
    unfold ForType at hcond
    have hfirst : firstStored (stored [("output_type", [.str "unknown_word"]), ("output_unknown_word", [.str part])]) "output_unknown_word" = some [.str part] := by
      simp [firstStored, stored]
    rcases typed_condition hm hw hlog "unknown_word" (p := "output_unknown_word") (col := "word") (by decide +kernel) "E1" k with
      ⟨b, rest, u, h1, _, h3, h4⟩ | ⟨_, h2⟩
    · rw [hfirst] at h3
      cases h3
      exact ⟨b, .inr ⟨by simp [hcond], rest, by rw [h0, hcond]; exact h1⟩, h4⟩
    · rw [hfirst] at h2
      exact absurd (h2 ((hty _).2 rfl)) (by simp)
  have hf := reply_found hm hw hlog (fun t' h => (hty t').1 h) hrule hc
  have hcv : consequentValues (overE1 ['t', 'e', 'x', 't']) b = [.str part] := by
    simp only [overE1, consequentValues, List.map_cons, List.map_nil, reduceCtorEq, if_false]
    rw [show String.ofList ['E', '1'] = "E1" from rfl, hb]; rfl
  have hwords : genWords (genNode (solverAt (modelOf ms) (k + 1)) wg n) rule b rule.cons [rule.hash] w =
      .ok w ([rule.hash], [.str (String.ofList said), .str " ", .str part]) := by
    rw [hl.cons]
    simp only [genWords, hcv]
    rfl
  have := generate_of_node (l := l) (genNode_words hf n hwords (parts_no_post.2 hl.post))
  rw [this]
  simp [combineWords, textsOf, String.join]

/-- The reply to a text that can not be read: what is said, and the first nine characters after the longest part of the text that can be read from the left. -/
def Refusal (E : Oracles) (rules : List (GRule Attachment)) (said text : Str) (reply : Value) : Prop :=
  ∃ K, LongestRead E rules (normalizeSpace text) K ∧ K < (normalizeSpace text).length ∧
    reply = .str (String.ofList (said ++ ' ' :: (((normalizeSpace text).drop K).take 9 ++ [' ', '.', '.', '.'])))

/-- What the parser says about a text without a derivation. -/
theorem parse_refused {E : Oracles} {rules : List (GRule Attachment)} (ok : RulesOk rules) (names : NamesOk rules) {text : Str}
    (hl : LowerOk E (normalizeSpace text)) {fuel depth : Nat} {e : ParseError}
    (hp : (basicParse E fuel depth (Grammar.new rules) text).1 = .ok ([], e)) :
    ∃ K, LongestRead E rules (normalizeSpace text) K ∧
      e = if K < (normalizeSpace text).length then .unknownWord (((normalizeSpace text).drop K).take 9 ++ [' ', '.', '.', '.'])
          else if normalizeSpace text = [] then .noSentence else .notUnderstood := by
  simp only [basicParse] at hp
  cases hr : (parse E fuel depth (Grammar.new rules) (normalizeSpace text)).1 with
  | err e => rw [hr] at hp; simp [Out.bind] at hp
  | oof => rw [hr] at hp; simp [Out.bind] at hp
  | ok p =>
    obtain ⟨trees, e'⟩ := p
    rw [hr] at hp
    simp only [Out.bind, Out.ok.injEq, Prod.mk.injEq] at hp
    obtain ⟨hp, rfl⟩ := hp
    have hperm := C38_permutation trees
    rw [hp] at hperm
    obtain rfl := hperm.symm.eq_nil
    obtain ⟨K, k1, k2, k3⟩ := (C34_error E rules ok names _ hl fuel depth _ e' hr).2 rfl
    exact ⟨K, ⟨k1, k2⟩, k3⟩

/-- The report of an error asks for two levels of the solver. -/
theorem report_deep {w w' : W} (hm : StoresIn ms l outputRelations w) {e : ParseError} {n : Nat} {o : SolOut}
    (h : (solverAt (modelOf ms) n).solve (reportQuery e) [] w = .ok w' o) : ∃ k, n = k + 2 := by
  match n with
  | 0 => cases h
  | 1 =>
    rw [reportQuery, solve_core (f := coreStore) hm.store_here (by rfl) (by decide)] at h
    cases h
  | k + 2 => exact ⟨k, rfl⟩

/-- **C96** If a turn with a text without a derivation returns, then the reply tells which part of the text could not be read. Nothing else has changed: the
session is as before, except that the text has been parsed. -/
theorem C96_refused (E : Oracles) (rules : List (GRule Attachment)) (ok : RulesOk rules) (names : NamesOk rules)
    (hrule : RepliesWith wg "unknown_word" rule) (hu : UnknownRule rule said) (text : Str) (hl : LowerOk E (normalizeSpace text))
    (optimizer : Option (List (Module W))) (fuel depth n m : Nat) {fuel' depth' : Nat} (texts : List Str) {s : Session W}
    (hg : s.grammar = parseHistory E fuel' depth' (Grammar.new rules) texts) (hm : StoresIn ms l outputRelations s.world)
    (hw : l.get s.world = SimpleStore.clear)
    (hnd : ∀ x p, p = "output_not_understood" ∨ p = "output_no_sentence" → findRelations (modelOf ms) (l.put x s.world) p = [])
    (hno : ∀ d, ¬ WholeDerivation E rules (normalizeSpace text) d) {s' : Session W} {reply : Value}
    (h : turn (solverAt (modelOf ms) n).inSession (sentencePipeline E fuel depth optimizer (solverAt (modelOf ms) n)) wg l.inSession m text s = .ok s' reply) :
    s' = { s with grammar := parseHistory E fuel' depth' (Grammar.new rules) (texts ++ [normalizeSpace text]) } ∧ Refusal E rules said text reply := by
  obtain ⟨st, res, henter, hgo⟩ : ∃ st res, enter (solverAt (modelOf ms) n).inSession
      (sentencePipeline E fuel depth optimizer (solverAt (modelOf ms) n)) (Request.new text, s) = .ok st res ∧
      generateOutput (solverAt (modelOf ms) n).inSession wg l.inSession m st.2 = .ok s' reply := by
    simp only [turn] at h
    cases he : enter (solverAt (modelOf ms) n).inSession (sentencePipeline E fuel depth optimizer (solverAt (modelOf ms) n)) (Request.new text, s) with
    | ok st res => rw [he] at h; exact ⟨st, res, rfl, h⟩
    | err st e => rw [he] at h; cases h
    | oof => rw [he] at h; cases h
  rw [generateOutput_inSession] at hgo
  obtain ⟨w2, hgen, rfl⟩ := inWorld_ok.1 hgo
  obtain ⟨hgr, h⟩ := enter_sentence henter
  have hhist : st.2.grammar = parseHistory E fuel' depth' (Grammar.new rules) (texts ++ [normalizeSpace text]) := by
    rw [hgr, hg, parseHistory, parseHistory, List.foldl_append]; rfl
  rw [hg, C33_no_memory_block] at h
  rcases h with ⟨e, hp, _, hgn, o, hsolve⟩ | ⟨t, rest, _, _, _, _, _, _, _, _, _, hp, _⟩
  · obtain ⟨K, hK, he⟩ := parse_refused ok names hl hp
    obtain ⟨k, rfl⟩ := report_deep hm hsolve
    have hlt : K < (normalizeSpace text).length := by
      apply Decidable.by_contra
      intro hlt
      rw [if_neg hlt] at he
      have hnd' : ∀ x, findRelations (modelOf ms) (l.put x s.world) ("output_" ++ e.type) = [] := by
        intro x
        apply hnd
        rw [he]
        split
        · exact .inr rfl
        · exact .inl rfl
      rw [report_unregistered hm (args' := e.args) hnd' k] at hsolve
      cases hsolve
    rw [if_pos hlt] at he
    generalize hpart : ((normalizeSpace text).drop K).take 9 ++ [' ', '.', '.', '.'] = part at he
    subst he
    have hst := C18_store hm (atoms := [("output_type", [.str "unknown_word"]), ("output_unknown_word", [.str (String.ofList part)])])
      (by
        intro a ha
        simp only [List.mem_cons, List.not_mem_nil, or_false] at ha
        rcases ha with rfl | rfl <;> rfl) [] k
    have hrep := storeAll_represents l outputRelations [] [("output_type", [.str "unknown_word"]), ("output_unknown_word", [.str (String.ofList part)])] s.world
      (log := []) (by intro t; simp [hw, SimpleStore.clear])
    obtain ⟨x, hx⟩ := storeAll_put l outputRelations [] [("output_type", [.str "unknown_word"]), ("output_unknown_word", [.str (String.ofList part)])] s.world
    rw [hx] at hst hrep
    have heq : (solverAt (modelOf ms) (k + 2)).solve (storeQuery [("output_type", [.str "unknown_word"]), ("output_unknown_word", [.str (String.ofList part)])])
      [] s.world = .ok st.2.world o := hsolve
    rw [hst] at heq
    injection heq with hworld _
    rw [← hworld] at hgen
    obtain ⟨m, rfl⟩ : ∃ j, m = j + 1 := by
      cases m with
      | zero => simp [generateOutput, genNode, M.bind_run] at hgen
      | succ m => exact ⟨m, rfl⟩
    rw [unknown_reply (hm.put x) hrep hrule hu m] at hgen
    cases hgen
    refine ⟨?_, K, hK, hlt, ?_⟩
    · rw [l.put_put, ← hw, l.put_get, ← hhist, ← hgn]
    · rw [hpart]
      congr 1
      apply String.toList_injective
      simp
  · obtain ⟨c0, d, hc1, hc2, hd, _⟩ := first_derivation ok hl hp
    exact absurd ⟨c0, hc1, hc2, hd⟩ (hno d)

/-- **C96** (returning) If no category is rewritten to itself without end, then, with enough steps and depth, the turn returns that reply; or all of the text can be
read, and the turn raises, because there is no relation for the error. -/
theorem C96_refused_returns (E : Oracles) (rules : List (GRule Attachment)) (ok : RulesOk rules) (names : NamesOk rules) (wf : WellFounded (UnitStep rules))
    (hrule : RepliesWith wg "unknown_word" rule) (hu : UnknownRule rule said) (text : Str) (hl : LowerOk E (normalizeSpace text))
    (hno : ∀ d, ¬ WholeDerivation E rules (normalizeSpace text) d) :
    ∃ N K, LongestRead E rules (normalizeSpace text) K ∧ ∀ (optimizer : Option (List (Module W))) fuel depth n m fuel' depth' texts (s : Session W),
      N ≤ fuel → N ≤ depth → 2 ≤ n → 1 ≤ m →
      s.grammar = parseHistory E fuel' depth' (Grammar.new rules) texts → StoresIn ms l outputRelations s.world → l.get s.world = SimpleStore.clear →
      (∀ x p, p = "output_not_understood" ∨ p = "output_no_sentence" → findRelations (modelOf ms) (l.put x s.world) p = []) →
      if K < (normalizeSpace text).length then
        ∃ reply, turn (solverAt (modelOf ms) n).inSession (sentencePipeline E fuel depth optimizer (solverAt (modelOf ms) n)) wg l.inSession m text s =
          .ok { s with grammar := parseHistory E fuel' depth' (Grammar.new rules) (texts ++ [normalizeSpace text]) } reply ∧ Refusal E rules said text reply
      else ∃ s', turn (solverAt (modelOf ms) n).inSession (sentencePipeline E fuel depth optimizer (solverAt (modelOf ms) n)) wg l.inSession m text s =
          .err s' (.exception "No relation available in the model") := by
  obtain ⟨N, hN⟩ := parse_no_derivation E rules ok names wf text hl hno
  obtain ⟨K, _, hK, _, _⟩ := hN N N (Nat.le_refl _) (Nat.le_refl _) 0 0 []
  refine ⟨N, K, hK, fun optimizer fuel depth n m fuel' depth' texts s h1 h2 h3 h4 hg hm hw hnd => ?_⟩
  obtain ⟨K', e, hK', he, hp⟩ := hN fuel depth h1 h2 fuel' depth' texts
  obtain rfl := longestRead_unique hK hK'
  rw [← hg] at hp
  obtain ⟨k, rfl⟩ : ∃ k, n = k + 2 := ⟨n - 2, by omega⟩
  obtain ⟨m, rfl⟩ : ∃ k, m = k + 1 := ⟨m - 1, by omega⟩
  have henter := enter_error (optimizer := optimizer) (api := solverAt (modelOf ms) (k + 2)) hp
  split
  · rename_i hlt
    suffices hs : ∃ s' reply, turn (solverAt (modelOf ms) (k + 2)).inSession (sentencePipeline E fuel depth optimizer (solverAt (modelOf ms) (k + 2))) wg l.inSession
        (m + 1) text s = .ok s' reply by
      obtain ⟨s', reply, hs⟩ := hs
      obtain ⟨rfl, hr⟩ := C96_refused E rules ok names hrule hu text hl optimizer fuel depth (k + 2) (m + 1) texts hg hm hw hnd hno hs
      exact ⟨reply, hs, hr⟩
    rw [if_pos hlt] at he
    generalize hpart : ((normalizeSpace text).drop K).take 9 ++ [' ', '.', '.', '.'] = part at he
    subst he
    have hst := C18_store hm (atoms := [("output_type", [.str "unknown_word"]), ("output_unknown_word", [.str (String.ofList part)])])
      (by
        intro a ha
        simp only [List.mem_cons, List.not_mem_nil, or_false] at ha
        rcases ha with rfl | rfl <;> rfl) [] k
    have hrep := storeAll_represents l outputRelations [] [("output_type", [.str "unknown_word"]), ("output_unknown_word", [.str (String.ofList part)])] s.world
      (log := []) (by intro t; simp [hw, SimpleStore.clear])
    obtain ⟨x, hx⟩ := storeAll_put l outputRelations [] [("output_type", [.str "unknown_word"]), ("output_unknown_word", [.str (String.ofList part)])] s.world
    rw [hx] at hst hrep
    rw [show (solverAt (modelOf ms) (k + 2)).solve (reportQuery (.unknownWord part)) [] s.world = _ from hst] at henter
    have hgo := (inWorld_ok (s := ⟨parseHistory E fuel' depth' (Grammar.new rules) (texts ++ [normalizeSpace text]), s.gen, l.put x s.world⟩)).2
      ⟨_, unknown_reply (k := k + 1) (hm.put x) hrep hrule hu m, rfl⟩
    rw [← generateOutput_inSession] at hgo
    exact ⟨_, _, by unfold turn; rw [henter]; exact hgo⟩
  · rename_i hlt
    rw [if_neg hlt] at he
    have hnd' : ∀ x, findRelations (modelOf ms) (l.put x s.world) ("output_" ++ e.type) = [] := by
      intro x
      apply hnd
      rw [he]
      split
      · exact .inr rfl
      · exact .inl rfl
    rw [show (solverAt (modelOf ms) (k + 2)).solve (reportQuery e) [] s.world = _ from report_unregistered hm (args' := e.args) hnd' k] at henter
    exact ⟨_, by unfold turn; rw [henter]⟩

end

section
variable {W : Type} {ar : String → Option Nat} {tables : List (Dict (List (List Value)))} {rs : List HornRule} {l : Lens W SimpleStore} {g : W → InfState}
  {wg : Grammar WriteSem} {f : List Value → Except Err Value} {yes no said : Str} {rule : WRule}
  {R : List String} {kinds : Str → Nat → Kind} {spec : GRule Attachment → List Value → RuleParts} {asks : GRule Attachment → Asked}

/-- The reply that the text should get: a question of the grammar the right reply to the reading that is preferred, another text the message that it can not be
read. -/
def Answered (P : Program) (E : Oracles) (rules : List (GRule Attachment)) (spec : GRule Attachment → List Value → RuleParts) (asks : GRule Attachment → Asked)
    (f : List Value → Except Err Value) (yes no said text : Str) (reply : Value) : Prop :=
  (∃ t d, WholeDerivation E rules (normalizeSpace text) d ∧ TreesOf Eq [d] [t] ∧
    (∀ d', WholeDerivation E rules (normalizeSpace text) d' → ∃ t', TreesOf (fun r r' => r.equals r' = true) [d'] [t'] ∧
      (t' = t ∨ RankedBefore t t')) ∧
    RightReply P spec t f yes no (asks t.rule) reply) ∨
  (∀ d, ¬ WholeDerivation E rules (normalizeSpace text) d) ∧ Refusal E rules said text reply

/-- The names that have been used after a text. -/
def NamesAfter (E : Oracles) (rules : List (GRule Attachment)) (text : Str) (gen gen' : Gen) : Prop :=
  (∃ t c, Meant E rules text gen t gen' c) ∨ (∀ d, ¬ WholeDerivation E rules (normalizeSpace text) d) ∧ gen' = gen

/-- The optimiser does not spoil the content of the questions among the texts. -/
def SortableTexts (ar : String → Option Nat) (E : Oracles) (rules : List (GRule Attachment)) (asks : GRule Attachment → Asked) : List Str → Gen → Prop
  | [], _ => True
  | text :: texts, gen => SortableText ar E rules asks text gen ∧ ∀ gen', NamesAfter E rules text gen gen' → SortableTexts ar E rules asks texts gen'

/-- **C96** If a turn returns, then the text has got the reply that it should get, and the facts and rules have not changed. -/
theorem C96_turn (K : KnowledgeBase W ar tables rs) (hrr : HeadsBound rs) (hcore : ∀ p ∈ coreNames, NotDefined K.others K.world p)
    (hbuf : StoresIn K.others l outputRelations K.world) (hempty : l.get K.world = SimpleStore.clear)
    (hnd : ∀ x p, p = "output_not_understood" ∨ p = "output_no_sentence" → findRelations K.modules (l.put x K.world) p = [])
    (E : Oracles) (rules : List (GRule Attachment)) (ok : RulesOk rules) (names : NamesOk rules)
    (hspec : ∀ r, Usable rules r → r.ante.predicate ≠ cRoot → SpecRule ar R kinds spec r)
    (hquest : ∀ r, Usable rules r → r.ante.predicate = cRoot → QuestionRule ar R kinds spec asks r ∧ Served K.others K.world g wg f yes no (asks r))
    (hnest : ∀ r, Usable rules r → ∀ c ∈ r.cons, c.pos = .relation → c.predicate ≠ cRoot)
    (hrule : RepliesWith wg "unknown_word" rule) (hu : UnknownRule rule said)
    (text : Str) (hl : LowerOk E (normalizeSpace text)) (fuel depth n m : Nat)
    {fuel' depth' : Nat} (texts : List Str) {s : Session W} (hg : s.grammar = parseHistory E fuel' depth' (Grammar.new rules) texts)
    (hw : s.world = K.world) {optimizer : Option (List (Module W))}
    (hopt : optimizer = none ∨ optimizer = some K.modules ∧ K.SmallSizes ∧ SortableText ar E rules asks text s.gen)
    {s' : Session W} {reply : Value}
    (h : turn (solverAt K.modules n).inSession (sentencePipeline E fuel depth optimizer (solverAt K.modules n)) wg l.inSession m text s = .ok s' reply) :
    s'.world = K.world ∧ s'.grammar = parseHistory E fuel' depth' (Grammar.new rules) (texts ++ [normalizeSpace text]) ∧
    (optimizer = some K.modules → NamesAfter E rules text s.gen s'.gen) ∧
    Answered (program tables rs) E rules spec asks f yes no said text reply := by
  by_cases hder : ∃ d, WholeDerivation E rules (normalizeSpace text) d
  · rcases hopt with rfl | ⟨rfl, hs, hsort⟩
    · obtain ⟨k1, k2, k3⟩ := C94_reply K hrr hcore hbuf hempty E rules ok hspec hquest hnest text hl fuel depth n m texts hg hw hder h
      exact ⟨k1, k2, by simp, .inl k3⟩
    · obtain ⟨k1, k2, t, d, k3, k4, k5, k6, c, k7⟩ := C95_reply K hrr hcore hs hbuf hempty E rules ok hspec hquest hnest text hl fuel depth n m texts hg hw hder
        hsort h
      exact ⟨k1, k2, fun _ => .inl ⟨t, c, k7⟩, .inl ⟨t, d, k3, k4, k5, k6⟩⟩
  · have hno : ∀ d, ¬ WholeDerivation E rules (normalizeSpace text) d := fun d hd => hder ⟨d, hd⟩
    obtain ⟨rfl, hr⟩ := C96_refused (ms := K.others) E rules ok names hrule hu text hl optimizer fuel depth n m texts hg (by rw [hw]; exact hbuf)
      (by rw [hw]; exact hempty) (by rw [hw]; exact hnd) hno h
    exact ⟨hw, rfl, fun _ => .inr ⟨hno, rfl⟩, .inr ⟨hno, hr⟩⟩

/-- **C96** (dialogs) If a test of a dialog passes, then each text was expected to get the reply that it should get. -/
theorem C96_dialog (K : KnowledgeBase W ar tables rs) (hrr : HeadsBound rs) (hcore : ∀ p ∈ coreNames, NotDefined K.others K.world p)
    (hbuf : StoresIn K.others l outputRelations K.world) (hempty : l.get K.world = SimpleStore.clear)
    (hnd : ∀ x p, p = "output_not_understood" ∨ p = "output_no_sentence" → findRelations K.modules (l.put x K.world) p = [])
    (E : Oracles) (rules : List (GRule Attachment)) (ok : RulesOk rules) (names : NamesOk rules)
    (hspec : ∀ r, Usable rules r → r.ante.predicate ≠ cRoot → SpecRule ar R kinds spec r)
    (hquest : ∀ r, Usable rules r → r.ante.predicate = cRoot → QuestionRule ar R kinds spec asks r ∧ Served K.others K.world g wg f yes no (asks r))
    (hnest : ∀ r, Usable rules r → ∀ c ∈ r.cons, c.pos = .relation → c.predicate ≠ cRoot)
    (hrule : RepliesWith wg "unknown_word" rule) (hu : UnknownRule rule said) (fuel depth n m : Nat) {fuel' depth' : Nat}
    {optimizer : Option (List (Module W))} :
    ∀ (tests : List (Str × Value)) (texts : List Str) {s s' : Session W}, s.grammar = parseHistory E fuel' depth' (Grammar.new rules) texts →
    s.world = K.world → (∀ p ∈ tests, LowerOk E (normalizeSpace p.1)) →
    (optimizer = none ∨ optimizer = some K.modules ∧ K.SmallSizes ∧ SortableTexts ar E rules asks (tests.map Prod.fst) s.gen) →
    doRun (solverAt K.modules n).inSession (sentencePipeline E fuel depth optimizer (solverAt K.modules n)) wg l.inSession m tests s = .ok s' () →
    s'.world = K.world ∧ ∀ p ∈ tests, Answered (program tables rs) E rules spec asks f yes no said p.1 p.2
  | [], texts, s, s', _, hw, _, _, h => by
    cases h
    exact ⟨hw, by simp⟩
  | (text, expected) :: tests, texts, s, s', hg, hw, hall, hopt, h => by
    simp only [doRun, M.bind_eq_ok] at h
    obtain ⟨s1, output, h1, h2⟩ := h
    obtain ⟨k1, k2, k3, k4⟩ := C96_turn K hrr hcore hbuf hempty hnd E rules ok names hspec hquest hnest hrule hu text (hall _ List.mem_cons_self) fuel depth n m
      texts hg hw (hopt.imp_right fun ⟨a, b, c⟩ => ⟨a, b, c.1⟩) h1
    split at h2
    · rename_i he
      subst he
      obtain ⟨r1, r2⟩ := C96_dialog K hrr hcore hbuf hempty hnd E rules ok names hspec hquest hnest hrule hu fuel depth n m tests _ k2 k1
        (fun p hp => hall p (List.mem_cons_of_mem _ hp)) (hopt.imp_right fun ⟨a, b, c⟩ => ⟨a, b, c.2 _ (k3 a)⟩) h2
      refine ⟨r1, fun p hp => ?_⟩
      rcases List.mem_cons.1 hp with rfl | hp
      · exact k4
      · exact r2 p hp
    · cases h2

end

/-! ### An example: questions, and texts that can not be read -/

namespace Ex

/-- The write grammar of a system: the rules of `en_us_write`, then its own, as in `tests/integration/chat80/test.py:81`. -/
def mixedWrite : Grammar WriteSem :=
  [(['s'], [(0, [sorryRule whoOracles.ruleHash, emptyRule whoOracles.ruleHash, couldRule whoOracles.ruleHash, sayRule whoOracles.ruleHash "ok" ['O', 'K'],
    sayRule whoOracles.ruleHash "yes" ['y', 'e', 's'], sayRule whoOracles.ruleHash "no" ['n', 'o'], sayValue whoOracles.ruleHash,
    sayList whoOracles.ruleHash asList])])]

theorem mixedWrite_parsed (uni : Char → Bool) : parseWriteGrammar uni whoOracles.ruleHash (enUsWrite ++ homeDicts asList) = .ok mixedWrite := by
  have h : parseSimpleRules uni whoOracles.ruleHash true ((enUsWrite ++ homeDicts asList).map WriteDict.rule) =
      .ok [sorryRule whoOracles.ruleHash, emptyRule whoOracles.ruleHash, couldRule whoOracles.ruleHash, sayRule whoOracles.ruleHash "ok" ['O', 'K'],
        sayRule whoOracles.ruleHash "yes" ['y', 'e', 's'], sayRule whoOracles.ruleHash "no" ['n', 'o'], sayValue whoOracles.ruleHash,
        sayList whoOracles.ruleHash asList] :=
    parseSimpleRules_cons _ _ _ rfl (parseSimpleRules_cons _ _ _ rfl (parseSimpleRules_cons _ _ _ rfl (parseSimpleRules_cons _ _ _ rfl
      (parseSimpleRules_cons _ _ _ rfl (parseSimpleRules_cons _ _ _ rfl (parseSimpleRules_cons _ _ _ rfl (parseSimpleRules_cons _ _ _ rfl rfl)))))))
  have hadd : ∀ (rs : List WRule) (r : WRule), r.ante = sCons → ruleVariants r = [r] →
      Grammar.addRule [(['s'], [(0, rs)])] r = [(['s'], [(0, rs ++ [r])])] := by
    intro rs r h1 h2
    simp [Grammar.addRule, h1, h2, sCons, Assoc.get, Assoc.set]
  simp only [parseWriteGrammar, parseGrammarRules, h, Grammar.new, List.foldl_cons, List.foldl_nil]
  rw [show Grammar.addRule [] (sorryRule whoOracles.ruleHash) = [(['s'], [(0, [sorryRule whoOracles.ruleHash])])] from rfl,
    hadd _ _ rfl rfl, hadd _ _ rfl rfl, hadd _ _ rfl rfl, hadd _ _ rfl rfl, hadd _ _ rfl rfl, hadd _ _ rfl rfl, hadd _ _ rfl rfl]
  rfl

/-- The rule is for another type. -/
theorem mixed_before {t : String} {pre : List WRule} (h : ∀ r ∈ pre, ∃ t' more, r.condition = .tuple [.str "output_type", .str t'] :: more ∧ t' ≠ t) :
    ∀ r ∈ pre, ∃ t' more, t' ≠ t ∧ ForType r t' more := fun r hr => by
  obtain ⟨t', more, h1, h2⟩ := h r hr
  exact ⟨t', more, h2, h1⟩

theorem mixed_rules : RepliesWith mixedWrite "unknown_word" (couldRule whoOracles.ruleHash) ∧
    RepliesWith mixedWrite "yes" (sayRule whoOracles.ruleHash "yes" ['y', 'e', 's']) ∧ RepliesWith mixedWrite "no" (sayRule whoOracles.ruleHash "no" ['n', 'o']) ∧
    RepliesWith mixedWrite "value" (sayValue whoOracles.ruleHash) ∧ RepliesWith mixedWrite "list" (sayList whoOracles.ruleHash asList) := by
  refine ⟨⟨[_, _], _, rfl, mixed_before ?_⟩, ⟨[_, _, _, _], _, rfl, mixed_before ?_⟩, ⟨[_, _, _, _, _], _, rfl, mixed_before ?_⟩,
    ⟨[_, _, _, _, _, _], _, rfl, mixed_before ?_⟩, ⟨[_, _, _, _, _, _, _], _, rfl, mixed_before ?_⟩⟩ <;>
  · simp only [List.forall_mem_cons]
    repeat' apply And.intro
    all_goals first
      | exact ⟨_, _, rfl, by decide⟩
      | exact fun _ h => absurd h List.not_mem_nil

theorem mixed_unknown : UnknownRule (couldRule whoOracles.ruleHash) couldText := ⟨rfl, rfl, by
  rintro p ⟨x, h1, h2⟩
  simp only [couldRule, GRule.new, RuleSem.user.injEq] at h1
  subst h1
  simp at h2⟩

theorem mixed_served (a : Asked) : Served kinHomeKB.others kinHomeKB.world homeIntents.get mixedWrite asList ['y', 'e', 's'] ['n', 'o'] a := by
  obtain ⟨_, r1, r2, r3, r4⟩ := mixed_rules
  obtain ⟨s1, s2, s3⟩ := say_rules whoOracles.ruleHash asList
  cases a with
  | list x => exact ⟨⟨rfl, rfl⟩, kinHome_undefined rfl rfl rfl rfl, _, r4, s3⟩
  | value x =>
    refine ⟨⟨rfl, rfl⟩, kinHome_undefined rfl rfl rfl rfl, ⟨_, r3, s2⟩, ?_⟩
    rw [show Grammar.findRules mixedWrite ['s'] 0 = [sorryRule whoOracles.ruleHash, emptyRule whoOracles.ruleHash, couldRule whoOracles.ruleHash,
      sayRule whoOracles.ruleHash "ok" ['O', 'K'], sayRule whoOracles.ruleHash "yes" ['y', 'e', 's'], sayRule whoOracles.ruleHash "no" ['n', 'o'],
      sayValue whoOracles.ruleHash, sayList whoOracles.ruleHash asList] from rfl]
    simp only [List.forall_mem_cons]
    repeat' apply And.intro
    all_goals first
      | exact ⟨_, _, rfl⟩
      | exact fun _ h => absurd h List.not_mem_nil
  | yesNo => exact ⟨⟨rfl, rfl⟩, ⟨_, r1, s1 _ _⟩, _, r2, s1 _ _⟩

theorem mixed_quest (r : GRule Attachment) (h : Usable typedGrammar r) (hr : r.ante.predicate = cRoot) :
    QuestionRule kinAr kinSlots kinKinds typedSpec typedAsks r ∧
    Served kinHomeKB.others kinHomeKB.world homeIntents.get mixedWrite asList ['y', 'e', 's'] ['n', 'o'] (typedAsks r) :=
  ⟨(typed_quest r h hr).1, mixed_served _⟩

theorem typed_names : NamesOk typedGrammar := by
  have occ : ∀ c, Occurs typedGrammar c → c ∈ typedGrammar.flatMap fun r => r.ante :: r.cons := by
    rintro c ⟨r, hr, hc⟩
    exact List.mem_flatMap.2 ⟨r, hr, by rcases hc with rfl | hc <;> simp [*]⟩
  have h1 : ∀ x ∈ typedGrammar.flatMap (fun r => r.ante :: r.cons), ∀ y ∈ typedGrammar.flatMap (fun r => r.ante :: r.cons),
      x.predicate = y.predicate → x.pos = y.pos → x.args.length = y.args.length := by decide +kernel
  have h2 : ∀ c ∈ typedGrammar.flatMap (fun r => r.ante :: r.cons), c.pos ≠ .relation →
      (∀ r ∈ typedGrammar, ¬ (r.ante.predicate = c.predicate ∧ r.ante.args.length = c.args.length)) ∧ ¬ (c.predicate = cDelta ∧ c.args.length = 1) := by
    decide +kernel
  exact ⟨fun x y hx hy => h1 x (occ x hx) y (occ y hy), fun c hc => h2 c (occ c hc)⟩

theorem kinHome_unreported (x : SimpleStore) (p : String) (h : p = "output_not_understood" ∨ p = "output_no_sentence") :
    findRelations kinHomeKB.modules (homeBuffer.put x kinHomeKB.world) p = [] := by
  rcases h with rfl | rfl <;> rfl

/-- "find someone". -/
def someText : Str := ['f', 'i', 'n', 'd', ' ', 's', 'o', 'm', 'e', 'o', 'n', 'e']

/-- A question, a text that can not be read, and a question. -/
def mixedTests : List (Str × Value) :=
  [(whichText, .list [.str "mary", .str "bob"]), (someText, .str "Could not understand: someone ..."), (doesText, .str "no")]

theorem some_parsed : ∃ part, (basicParse whoOracles 200 20 (Grammar.new typedGrammar) someText).1 = .ok ([], .unknownWord part) := by
  have h : (match (basicParse whoOracles 200 20 (Grammar.new typedGrammar) someText).1 with | .ok ([], .unknownWord _) => true | _ => false) = true := by
    decide +kernel
  split at h
  · rename_i part hp
    exact ⟨part, hp⟩
  · cases h

theorem some_unreadable (d) : ¬ WholeDerivation whoOracles typedGrammar (normalizeSpace someText) d := by
  obtain ⟨part, hp⟩ := some_parsed
  exact no_first typed_rulesOk (by intro i; simp [whoOracles]) hp d

theorem mixed_sortable : SortableTexts kinAr whoOracles typedGrammar typedAsks (mixedTests.map Prod.fst) ⟨0, []⟩ := by
  have h1 : firstContent whoOracles typedGrammar 200 20 whichText ⟨0, []⟩ = some (⟨2, ["$1", "$2"]⟩, formValues whichQuery) := by decide +kernel
  have h2 : firstContent whoOracles typedGrammar 200 20 doesText ⟨2, ["$1", "$2"]⟩ = some (⟨4, ["$1", "$2", "$3", "$4"]⟩, formValues doesQuery) := by
    decide +kernel
  refine ⟨typed_sortable.1, fun gen' hn => ?_⟩
  obtain rfl : gen' = ⟨2, ["$1", "$2"]⟩ := by
    rcases hn with ⟨t, c, hm⟩ | ⟨hno, _⟩
    · exact (firstContent_meant h1 hm).1
    · obtain ⟨d, hd⟩ := typed_questions.1
      exact absurd hd (hno d)
  have hun : ∀ t gen gen' c, ¬ Meant whoOracles typedGrammar someText gen t gen' c := by
    rintro t gen gen' c ⟨fuel, depth, rest, roots, hp, _⟩
    obtain ⟨c0, d, hc1, hc2, hd, _⟩ := first_derivation typed_rulesOk (by intro i; simp [whoOracles]) hp
    exact some_unreadable d ⟨c0, hc1, hc2, hd⟩
  refine ⟨fun t gen' c ρ q hm => absurd hm (hun _ _ _ _), fun gen' hn => ?_⟩
  obtain rfl : gen' = ⟨2, ["$1", "$2"]⟩ := by
    rcases hn with ⟨t, c, hm⟩ | ⟨_, h⟩
    · exact absurd hm (hun _ _ _ _)
    · exact h
  exact ⟨sortableText_of kin_apart h2 doesQuery_ok doesQuery_sortable, fun _ _ => trivial⟩

theorem mixed_dialog : ∃ s', doRun (solverAt kinHomeKB.modules 12).inSession (sentencePipeline whoOracles 200 20 (some kinHomeKB.modules)
    (solverAt kinHomeKB.modules 12)) mixedWrite homeBuffer.inSession 2 mixedTests ⟨Grammar.new typedGrammar, ⟨0, []⟩, kinHomeKB.world⟩ = .ok s' () := by
  have h : isOk (doRun (solverAt kinHomeKB.modules 12).inSession (sentencePipeline whoOracles 200 20 (some kinHomeKB.modules)
    (solverAt kinHomeKB.modules 12)) mixedWrite homeBuffer.inSession 2 mixedTests ⟨Grammar.new typedGrammar, ⟨0, []⟩, kinHomeKB.world⟩) = true := by
    decide +kernel
  exact isOk_iff.1 h

/-- **C96** applies. -/
theorem mixed_answered : ∀ p ∈ mixedTests,
    Answered (program [kinTables, [], []] kinRules) whoOracles typedGrammar typedSpec typedAsks asList ['y', 'e', 's'] ['n', 'o'] couldText p.1 p.2 := by
  obtain ⟨s', h⟩ := mixed_dialog
  exact (C96_dialog kinHomeKB kin_heads kinHome_core kinHome_stores rfl kinHome_unreported whoOracles typedGrammar typed_rulesOk typed_names typed_spec mixed_quest
    typed_nest mixed_rules.1 mixed_unknown 200 20 12 2 (fuel' := 200) (depth' := 20) mixedTests [] rfl rfl (fun p _ => by intro i; simp [whoOracles])
    (.inr ⟨rfl, kinHome_sizes.1, mixed_sortable⟩) h).2

/-- **C96** (returning) applies: the text is always refused. -/
example : ∃ N, ∀ (optimizer : Option (List (Module Home))) fuel depth n m, N ≤ fuel → N ≤ depth → 2 ≤ n → 1 ≤ m →
    ∃ s' reply, turn (solverAt kinHomeKB.modules n).inSession (sentencePipeline whoOracles fuel depth optimizer (solverAt kinHomeKB.modules n)) mixedWrite
      homeBuffer.inSession m someText ⟨Grammar.new typedGrammar, ⟨0, []⟩, kinHomeKB.world⟩ = .ok s' reply ∧
      Refusal whoOracles typedGrammar couldText someText reply := by
  obtain ⟨N, K, hK, h⟩ := C96_refused_returns (ms := kinHomeKB.others) (l := homeBuffer) whoOracles typedGrammar typed_rulesOk typed_names typed_unit mixed_rules.1
    mixed_unknown someText (by intro i; simp [whoOracles]) some_unreadable
  obtain ⟨part, hp⟩ := some_parsed
  obtain ⟨K', hK', he⟩ := parse_refused typed_rulesOk typed_names (by intro i; simp [whoOracles]) hp
  obtain rfl := longestRead_unique hK hK'
  have hlt : K < (normalizeSpace someText).length := by
    apply Decidable.by_contra
    intro hlt
    rw [if_neg hlt] at he
    split at he <;> cases he
  refine ⟨N, fun optimizer fuel depth n m h1 h2 h3 h4 => ?_⟩
  have := h optimizer fuel depth n m 200 20 [] ⟨Grammar.new typedGrammar, ⟨0, []⟩, kinHomeKB.world⟩ h1 h2 h3 h4 rfl kinHome_stores rfl kinHome_unreported
  rw [if_pos hlt] at this
  obtain ⟨reply, h1, h2⟩ := this
  exact ⟨_, reply, h1, h2⟩

end Ex

end Verif

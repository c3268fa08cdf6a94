import Verif.LoggingLemmas

/-!
# C79, C80: logging

**C79**: a run with logging does what the run without logging does; the log only grows. **C80**: which tests of a dialog are in the log, and what is
there about them.
-/

namespace Verif

variable {P W : Type}

/-! ## C79 -/

/-- **C79**, the pipeline: with any logger, `enter` ends as it does without logging: the same product or exception, the same request, the same world.
The settings of the logger stay as they are and the old entries stay in front. -/
theorem C79_enter (L : LogTexts P) (api : SolverApi W) (blocks : List (Block P W)) (r : Request P) (lg : Logger) (w : W) :
    ∃ es, enter api.withLog (blocks.map (Block.withLog L)) (r, (lg, w)) =
      match enter api blocks (r, w) with
      | .ok (r', w') p => .ok (r', ({ lg with entries := lg.entries ++ es }, w')) p
      | .err (r', w') e => .err (r', ({ lg with entries := lg.entries ++ es }, w')) e
      | .oof => .oof := by
  obtain ⟨es, _, he⟩ := enter_logs L api blocks lg (r, w)
  refine ⟨es, ?_⟩
  have he' : enter api.withLog (blocks.map (Block.withLog L)) (r, (lg, w)) = (enter api blocks (r, w)).mapWorld (inRequest (lg.append es)) := he
  rw [he']
  cases enter api blocks (r, w) <;> rfl

/-- **C79**, a logger that is not active (no tests, or only the last one and this is not the last) gets no entries from the pipeline, and neither does
one that was not asked for products. -/
theorem C79_silent (L : LogTexts P) (api : SolverApi W) (blocks : List (Block P W)) (r : Request P) (lg : Logger) (w : W)
    (h : lg.whichTests = .no ∨ (lg.whichTests = .last ∧ lg.isLastTest = false) ∨ lg.showProducts = false) :
    enter api.withLog (blocks.map (Block.withLog L)) (r, (lg, w)) =
      match enter api blocks (r, w) with
      | .ok (r', w') p => .ok (r', (lg, w')) p
      | .err (r', w') e => .err (r', (lg, w')) e
      | .oof => .oof := by
  obtain ⟨es, hp, he⟩ := enter_logs L api blocks lg (r, w)
  have hs : es = [] := by
    refine hp.silent ?_
    rcases h with h | h | h
    · left; simp [Logger.isActive, h]
    · left; simp [Logger.isActive, h.1, h.2]
    · exact .inr h
  subst hs
  have he' : enter api.withLog (blocks.map (Block.withLog L)) (r, (lg, w)) = (enter api blocks (r, w)).mapWorld (inRequest (lg.append [])) := he
  rw [he', Logger.append_nil]
  cases enter api blocks (r, w) <;> rfl

/-! ## C80 -/

/-- Entries about results of processors among `ids`, of which those in `chosen` are shown, or all if `chosen` is empty (specification). A result is shown
as the name of the processor, the error if there is one, and the products. -/
inductive Results (L : LogTexts P) (ids chosen : List Nat) : List Str → Prop
  | nil : Results L ids chosen []
  | failed {i : Nat} {error : String} {products : List P} {es : List Str} : i ∈ ids → (chosen = [] ∨ i ∈ chosen) → error ≠ "" →
      Results L ids chosen es →
      Results L ids chosen (headerEntry (L.name i) :: errorEntry error.toList :: (products.flatMap L.log ++ es))
  | done {i : Nat} {products : List P} {es : List Str} : i ∈ ids → (chosen = [] ∨ i ∈ chosen) → Results L ids chosen es →
      Results L ids chosen (headerEntry (L.name i) :: (products.flatMap L.log ++ es))

theorem Pieces.results {L : LogTexts P} {ids : List Nat} {lg : Logger} {es : List Str} (h : Pieces L ids lg es) :
    Results L ids lg.processors es := by
  induction h with
  | nil => exact .nil
  | @add i result es h1 _ _ h4 _ ih =>
    unfold pieceOf
    by_cases he : result.errorType = ""
    · rw [if_pos he]; simpa using Results.done (products := result.products) h1 h4 ih
    · rw [if_neg he]; simpa using Results.failed (products := result.products) h1 h4 he ih

/-- The log of tests that went well, the first of which has number `i` (specification). A test that is `shown` has a separator with its number, the
question, the results (if products were asked for), the answer and the time; other tests are not in the log. -/
inductive Transcript (L : LogTexts P) (width : Nat) (time : Nat → Str) (ids chosen : List Nat) (products : Bool) (shown : Str × Value → Prop) :
    Nat → List (Str × Value) → List Str → Prop
  | nil {i : Nat} : Transcript L width time ids chosen products shown i [] []
  | hide {i : Nat} {t : Str × Value} {ts : List (Str × Value)} {es : List Str} : ¬shown t →
      Transcript L width time ids chosen products shown (i + 1) ts es → Transcript L width time ids chosen products shown i (t :: ts) es
  | show {i : Nat} {t : Str × Value} {ts : List (Str × Value)} {mid es : List Str} : shown t → Results L ids chosen mid →
      (products = false → mid = []) → Transcript L width time ids chosen products shown (i + 1) ts es →
      Transcript L width time ids chosen products shown i (t :: ts)
        (separatorEntry width (i + 1) :: keyValueEntry ['H', 'u', 'm', 'a', 'n'] t.1 :: (mid ++
          (keyValueEntry ['C', 'o', 'm', 'p', 'u', 't', 'e', 'r'] (outputText t.2) :: commentEntry (time i) :: es)))

/-- The tests that are shown (specification). -/
def ShownBy (which : Which) (last : Option (Str × Value)) (t : Str × Value) : Prop := which = .all ∨ (which = .last ∧ last = some t)

section
variable (L : LogTexts P) (width : Nat) (time : Nat → Str) (api : SolverApi W) (blocks : List (Block P W)) (g : Grammar WriteSem)
  (l : Lens W SimpleStore) (n : Nat)

theorem doTests_eq (last : Option (Str × Value)) : ∀ (tests : List (Str × Value)) (i : Nat) (lg : Logger) (w : W), ∃ b es,
    doTests L width time api blocks g l n last i tests (lg, w) =
      (doRun api blocks g l n tests w).mapWorld (fun w' => ({ lg with isLastTest := b, entries := lg.entries ++ es }, w')) ∧
    ∀ w', doRun api blocks g l n tests w = .ok w' () →
      Transcript L width time (blocks.map fun b => b.processor.id) lg.processors lg.showProducts (ShownBy lg.whichTests last) i tests es
  | [], i, lg, w => ⟨lg.isLastTest, [], by simp [doTests, doRun, Res.mapWorld], fun _ _ => .nil⟩
  | (question, expected) :: tests, i, lg, w => by
    obtain ⟨logThis, hlog⟩ : ∃ b : Bool, b = (decide (lg.whichTests = .all) || (decide (lg.whichTests = .last) &&
      decide (last = some (question, expected)))) := ⟨_, rfl⟩
    have hshown : logThis = true ↔ ShownBy lg.whichTests last (question, expected) := by rw [hlog]; simp [ShownBy]
    obtain ⟨mid, hp, he⟩ := turnLogged_eq L width time api blocks g l n logThis i question expected lg w
    have hrun : doTests L width time api blocks g l n last i ((question, expected) :: tests) (lg, w) =
        (turnLogged L width time api blocks g l n logThis i question expected >>= fun _ =>
          doTests L width time api blocks g l n last (i + 1) tests) (lg, w) := by
      rw [hlog]; rfl
    rw [hrun]
    cases ht : turn api blocks g l n question w with
    | ok w1 output =>
      simp only [ht] at he
      by_cases ho : output = expected
      · simp only [if_pos ho] at he
        obtain ⟨b, es, h1, h2⟩ := doTests_eq last tests (i + 1) ({ lg with isLastTest := logThis }.append
          ((if logThis then testOpening width i question else []) ++ mid ++ (if logThis ∨ output ≠ expected then testClosing time i output else []))) w1
        have hd : doRun api blocks g l n ((question, expected) :: tests) w = doRun api blocks g l n tests w1 := by
          rw [doRun, M.bind_ok ht, if_pos ho]
        refine ⟨b, ((if logThis then testOpening width i question else []) ++ mid ++
          (if logThis ∨ output ≠ expected then testClosing time i output else [])) ++ es, ?_, ?_⟩
        · rw [M.bind_ok he, h1, hd]
          simp only [Logger.append, List.append_assoc]
        · intro w' hw'
          rw [hd] at hw'
          have h3 := h2 w' hw'
          simp only [Logger.append] at h3
          cases hl : logThis with
          | true =>
            have := Transcript.show (hshown.1 hl) (hp.results) (fun hpr => hp.silent (.inr hpr)) h3
            simpa [hl, testOpening, testClosing, ho] using this
          | false =>
            have hns : ¬ShownBy lg.whichTests last (question, expected) := by rw [← hshown, hl]; simp
            have hmid : mid = [] := by
              refine hp.silent (.inl ?_)
              have : lg.whichTests ≠ .all := fun h => hns (.inl h)
              simp [Logger.isActive, hl, this]
            have := Transcript.hide hns h3
            simpa [hl, hmid, ho] using this
      · simp only [if_neg ho] at he
        refine ⟨logThis, (if logThis then testOpening width i question else []) ++ mid ++
          (if logThis ∨ output ≠ expected then testClosing time i output else []), ?_, ?_⟩
        · rw [M.bind_err he, doRun, M.bind_ok ht, if_neg ho]; rfl
        · intro w' hw'
          rw [doRun, M.bind_ok ht, if_neg ho] at hw'
          simp at hw'
    | err w1 e =>
      simp only [ht] at he
      refine ⟨logThis, (if logThis then testOpening width i question else []) ++ mid, ?_, ?_⟩
      · rw [M.bind_err he, doRun, M.bind_err ht]; rfl
      · intro w' hw'
        rw [doRun, M.bind_err ht] at hw'
        simp at hw'
    | oof =>
      simp only [ht] at he
      refine ⟨logThis, [], ?_, ?_⟩
      · rw [doRun, M.bind_run, M.bind_run, he, ht]; rfl
      · intro w' hw'
        rw [doRun, M.bind_run, ht] at hw'
        simp at hw'

/-- **C79**, a dialog: with any logger a run of tests ends as it does without logging: passed or with the same exception, in the same world. Of the
logger only the entries and the mark for the last test change, and the old entries stay in front. -/
theorem C79_run (tests : List (Str × Value)) (lg : Logger) (w : W) : ∃ b es,
    doRunLogged L width time api blocks g l n tests (lg, w) =
      match doRun api blocks g l n tests w with
      | .ok w' a => .ok ({ lg with isLastTest := b, entries := lg.entries ++ es }, w') a
      | .err w' e => .err ({ lg with isLastTest := b, entries := lg.entries ++ es }, w') e
      | .oof => .oof := by
  obtain ⟨b, es, h, _⟩ := doTests_eq L width time api blocks g l n tests.getLast? tests 0 lg w
  refine ⟨b, es, ?_⟩
  rw [doRunLogged, h]
  cases doRun api blocks g l n tests w <;> rfl

/-- **C80**: after tests that went well the log has, in the order of the tests, the ones that are to be shown, each with its number, its question, the
results of the processors that were asked for, its answer and its time; and nothing else. All tests are shown, or those that are equal to the last. -/
theorem C80_transcript (tests : List (Str × Value)) (lg lg' : Logger) (w w' : W)
    (h : doRunLogged L width time api blocks g l n tests (lg, w) = .ok (lg', w') ()) : ∃ es, lg'.entries = lg.entries ++ es ∧
    Transcript L width time (blocks.map fun b => b.processor.id) lg.processors lg.showProducts (ShownBy lg.whichTests tests.getLast?) 0 tests es := by
  obtain ⟨b, es, h1, h2⟩ := doTests_eq L width time api blocks g l n tests.getLast? tests 0 lg w
  rw [doRunLogged, h1] at h
  cases hd : doRun api blocks g l n tests w with
  | ok w1 a =>
    rw [hd] at h
    simp only [Res.mapWorld, Res.ok.injEq, Prod.mk.injEq] at h
    exact ⟨es, by rw [← h.1.1], h2 w1 hd⟩
  | err w1 e => rw [hd] at h; cases h
  | oof => rw [hd] at h; cases h

variable {L width time} in
theorem Transcript.hidden {ids chosen : List Nat} {products : Bool} {shown : Str × Value → Prop} {i : Nat} {ts : List (Str × Value)} {es : List Str}
    (h : Transcript L width time ids chosen products shown i ts es) (hn : ∀ t ∈ ts, ¬shown t) : es = [] := by
  induction h with
  | nil => rfl
  | hide _ _ ih => exact ih fun t ht => hn t (List.mem_cons_of_mem _ ht)
  | «show» hs _ _ _ _ => exact absurd hs (hn _ (by simp))

variable {L width time} in
theorem Transcript.skip {ids chosen : List Nat} {products : Bool} {shown : Str × Value → Prop} : ∀ {ts us : List (Str × Value)} {i : Nat} {es : List Str},
    Transcript L width time ids chosen products shown i (ts ++ us) es → (∀ t ∈ ts, ¬shown t) →
    Transcript L width time ids chosen products shown (i + ts.length) us es
  | [], _, _, _, h, _ => h
  | t :: ts, us, i, es, h, hn => by
    cases h with
    | hide _ h' =>
      have := Transcript.skip h' fun u hu => hn u (List.mem_cons_of_mem _ hu)
      rw [List.length_cons, Nat.add_comm ts.length 1, ← Nat.add_assoc]
      exact this
    | «show» hs _ _ _ => exact absurd hs (hn _ (by simp))

/-- **C80**, no tests: tests that went well leave the log as it was. -/
theorem C80_none (tests : List (Str × Value)) (lg lg' : Logger) (w w' : W) (hno : lg.whichTests = .no)
    (h : doRunLogged L width time api blocks g l n tests (lg, w) = .ok (lg', w') ()) : lg'.entries = lg.entries := by
  obtain ⟨es, he, ht⟩ := C80_transcript L width time api blocks g l n tests lg lg' w w' h
  rw [he, ht.hidden fun t _ hs => by rcases hs with hs | hs <;> simp_all]
  simp

/-- **C80**, the last test: if no earlier test is equal to it, the log is about the last test only. -/
theorem C80_last (tests : List (Str × Value)) (t : Str × Value) (lg lg' : Logger) (w w' : W) (hlast : lg.whichTests = .last) (hnew : t ∉ tests)
    (h : doRunLogged L width time api blocks g l n (tests ++ [t]) (lg, w) = .ok (lg', w') ()) :
    ∃ mid, Results L (blocks.map fun b => b.processor.id) lg.processors mid ∧ (lg.showProducts = false → mid = []) ∧
      lg'.entries = lg.entries ++ [separatorEntry width (tests.length + 1), keyValueEntry ['H', 'u', 'm', 'a', 'n'] t.1] ++ mid ++
        [keyValueEntry ['C', 'o', 'm', 'p', 'u', 't', 'e', 'r'] (outputText t.2), commentEntry (time tests.length)] := by
  obtain ⟨es, he, ht⟩ := C80_transcript L width time api blocks g l n (tests ++ [t]) lg lg' w w' h
  have hl : (tests ++ [t]).getLast? = some t := by simp
  rw [hl] at ht
  have ht' := ht.skip fun u hu hs => by
    rcases hs with hs | hs
    · rw [hlast] at hs; cases hs
    · have := hs.2; simp only [Option.some.injEq] at this; exact hnew (this ▸ hu)
  cases ht' with
  | hide hns _ => exact absurd (.inr ⟨hlast, rfl⟩) hns
  | «show» _ hr hm h3 =>
    cases h3
    refine ⟨_, hr, hm, ?_⟩
    rw [he]
    simp

/-- **C80**, finding: when the last test has been done before, "only the last test" logs the earlier one too. -/
theorem C80_repeated (t : Str × Value) (lg lg' : Logger) (w w' : W) (hlast : lg.whichTests = .last)
    (h : doRunLogged L width time api blocks g l n [t, t] (lg, w) = .ok (lg', w') ()) :
    separatorEntry width 1 ∈ lg'.entries ∧ separatorEntry width 2 ∈ lg'.entries := by
  obtain ⟨es, he, ht⟩ := C80_transcript L width time api blocks g l n [t, t] lg lg' w w' h
  cases ht with
  | hide hns _ => exact absurd (.inr ⟨hlast, rfl⟩) hns
  | «show» _ _ _ h3 =>
    cases h3 with
    | hide hns _ => exact absurd (.inr ⟨hlast, rfl⟩) hns
    | «show» _ _ _ _ => rw [he]; constructor <;> simp

/-- **C80**, a test that goes wrong is logged in any case: the last entries are the answer that was given and the time. -/
theorem C80_wrong (question : Str) (expected output : Value) (lg : Logger) (w w' : W) (logThis : Bool) (i : Nat)
    (ht : turn api blocks g l n question w = .ok w' output) (hne : output ≠ expected) : ∃ lg' es,
    turnLogged L width time api blocks g l n logThis i question expected (lg, w) = .err (lg', w') (.exception "AssertionError") ∧
      lg'.entries = lg.entries ++ es ++ [keyValueEntry ['C', 'o', 'm', 'p', 'u', 't', 'e', 'r'] (outputText output), commentEntry (time i)] := by
  obtain ⟨mid, _, he⟩ := turnLogged_eq L width time api blocks g l n logThis i question expected lg w
  rw [ht] at he
  simp only [if_neg hne] at he
  refine ⟨_, (if logThis then testOpening width i question else []) ++ mid, he, ?_⟩
  simp [Logger.append, hne, testClosing]

end

/-- **C80**, one result: it is logged in full if the logger is active, was asked for products, and was asked for this processor or for none in
particular; otherwise nothing is logged. -/
theorem C80_result (L : LogTexts P) (i : Nat) (result : ProcResult P) (lg : Logger) :
    (lg.addProcessResult (L.name i) L.log i result).entries = lg.entries ++
      if (lg.whichTests = .all ∨ (lg.whichTests = .last ∧ lg.isLastTest = true)) ∧ lg.showProducts = true ∧ (lg.processors = [] ∨ i ∈ lg.processors)
      then [headerEntry (L.name i)] ++ (if result.errorType = "" then [] else [errorEntry result.errorType.toList]) ++ result.products.flatMap L.log
      else [] := by
  unfold Logger.addProcessResult
  by_cases h1 : lg.whichTests = .all ∨ (lg.whichTests = .last ∧ lg.isLastTest = true)
  · have ha : lg.isActive = true := by simpa [Logger.isActive] using h1
    by_cases h2 : lg.showProducts = true <;> by_cases h3 : lg.processors = [] ∨ i ∈ lg.processors <;>
      by_cases h4 : result.errorType = "" <;> simp [ha, h1, h2, h3, h4, Logger.append]
  · have ha : lg.isActive = false := by
      cases h : lg.isActive with
      | false => rfl
      | true => exact absurd (by simpa [Logger.isActive] using h) h1
    simp [ha, h1]

/-! ### What a terminal shows -/

/-- The terminal (specification): each character that is shown has the colour that was chosen last. `ESC [ code m` chooses a colour and is not shown; a code that is
not complete is dropped. The second argument is the part of the code that has been read. The result is what is shown, and the colour that is left. -/
def paint : Str → Option Str → Str → List (Str × Char) × Str
  | c, _, [] => ([], c)
  | c, none, x :: xs => if x = Char.ofNat 27 then paint c (some []) xs else ((c, x) :: (paint c none xs).1, (paint c none xs).2)
  | c, some code, x :: xs =>
    if x = Char.ofNat 27 then paint c (some []) xs
    else if x = 'm' then paint code none xs else if x = '[' then paint c (some code) xs else paint c (some (code ++ [x])) xs

/-- A text in a colour. -/
def inColour (c : Str) (t : Str) : List (Str × Char) := t.map fun x => (c, x)

theorem paint_text {t : Str} (h : Char.ofNat 27 ∉ t) (c r : Str) : paint c none (t ++ r) = (inColour c t ++ (paint c none r).1, (paint c none r).2) := by
  induction t with
  | nil => rfl
  | cons x t ih =>
    have hx : x ≠ Char.ofNat 27 := fun e => h (by simp [e])
    rw [List.cons_append, paint, if_neg hx, ih fun hm => h (by simp [hm])]
    rfl

theorem paint_colour {a b : Char} (ha : a ≠ 'm' ∧ a ≠ '[' ∧ a ≠ Char.ofNat 27) (hb : b ≠ 'm' ∧ b ≠ '[' ∧ b ≠ Char.ofNat 27) (c r : Str) : paint c none (colour [a, b] ++ r) = paint [a, b] none r := by
  simp only [colour, List.cons_append, List.nil_append]
  rw [paint, if_pos rfl, paint, if_neg (by decide), if_neg (by decide), if_pos rfl, paint, if_neg ha.2.2, if_neg ha.1, if_neg ha.2.1, paint, if_neg hb.2.2, if_neg hb.1,
    if_neg hb.2.1, paint, if_neg (by decide), if_pos rfl]
  rfl

theorem paint_reset (c r : Str) : paint c none (noColour ++ r) = paint ['0'] none r := by
  simp only [noColour, colour, List.cons_append, List.nil_append]
  rw [paint, if_pos rfl, paint, if_neg (by decide), if_neg (by decide), if_pos rfl, paint, if_neg (by decide), if_neg (by decide), if_neg (by decide), paint,
    if_neg (by decide), if_pos rfl]
  rfl

theorem paint_end (c : Str) : paint c none ['\n'] = ([(c, '\n')], c) := by
  rw [paint, if_neg (by decide)]; rfl

theorem coloured_line {a b : Char} (ha : a ≠ 'm' ∧ a ≠ '[' ∧ a ≠ Char.ofNat 27) (hb : b ≠ 'm' ∧ b ≠ '[' ∧ b ≠ Char.ofNat 27) {t : Str} (h : Char.ofNat 27 ∉ t) (c : Str) :
    paint c none (colour [a, b] ++ t ++ noColour ++ ['\n']) = (inColour [a, b] t ++ [(['0'], '\n')], ['0']) := by
  rw [List.append_assoc, List.append_assoc, paint_colour ha hb, paint_text h, paint_reset, paint_end]

/-- **C80**, what is shown: the headers, subheaders, comments and errors are shown in their colours, and a key is shown between brackets in the colour of keys, followed by
the value. Whatever colour there was before, the colour is the usual one afterwards. -/
theorem C80_shown (c : Str) {t : Str} (h : Char.ofNat 27 ∉ t) {key : Str} (hk : Char.ofNat 27 ∉ key) :
    paint c none (headerEntry t) = (inColour ['3', '3'] t ++ [(['0'], '\n')], ['0']) ∧
    paint c none (subheaderEntry t) = (inColour ['3', '6'] t ++ [(['0'], '\n')], ['0']) ∧
    paint c none (commentEntry t) = (inColour ['9', '0'] t ++ [(['0'], '\n')], ['0']) ∧
    paint c none (errorEntry t) = (inColour ['3', '1'] t ++ [(['0'], '\n')], ['0']) ∧
    paint c none (keyValueEntry key t) = (inColour ['3', '4'] (['['] ++ key ++ [']']) ++ inColour ['0'] ([' '] ++ t ++ ['\n']), ['0']) ∧
    paint c none (entry t) = (inColour c (t ++ ['\n']), c) := by
  refine ⟨coloured_line (by decide) (by decide) h c, coloured_line (by decide) (by decide) h c, coloured_line (by decide) (by decide) h c,
    coloured_line (by decide) (by decide) h c, ?_, ?_⟩
  · have e : keyValueEntry key t = colour ['3', '4'] ++ ((['['] ++ key ++ [']']) ++ (noColour ++ (([' '] ++ t ++ ['\n']) ++ []))) := by
      simp [keyValueEntry, keyColour]
    have h1 : Char.ofNat 27 ∉ ['['] ++ key ++ [']'] := by
      have : Char.ofNat 27 ≠ '[' ∧ Char.ofNat 27 ≠ ']' := by decide
      simp [hk, this.1, this.2]
    have h2 : Char.ofNat 27 ∉ [' '] ++ t ++ ['\n'] := by
      have : Char.ofNat 27 ≠ ' ' ∧ Char.ofNat 27 ≠ '\n' := by decide
      simp [h, this.1, this.2]
    rw [e, paint_colour (by decide) (by decide), paint_text h1, paint_reset, paint_text h2]
    simp [paint]
  · rw [entry, paint_text h, paint_end]
    simp [inColour]

/-- **C80**, what is shown of the separator: a line of tildes over the width of the terminal, with the number of the test near its beginning, if the terminal is
wide enough for the number. -/
theorem C80_separator (c : Str) {width test : Nat} (hw : 5 + (showNat test).length ≤ width) :
    paint c none (separatorEntry width test) =
      ((inColour ['3', '3'] ['~', '~', '['] ++ inColour ['3', '7'] ([' '] ++ showNat test ++ [' ']) ++
        inColour ['3', '3'] ([']'] ++ List.replicate width '~')).take width ++ [(['0'], '\n')], ['0']) := by
  have hd : Char.ofNat 27 ∉ showNat test := fun hm => by
    have := showNat_isDigit test _ hm
    revert this; decide
  obtain ⟨k, hk⟩ : ∃ k, width = (5 + (showNat test).length) + k := ⟨_, (Nat.add_sub_cancel' hw).symm⟩
  generalize hrest : [']'] ++ List.replicate width '~' = rest
  have hr : Char.ofNat 27 ∉ rest.take k := fun hm => by
    have hm := List.mem_of_mem_take hm
    rw [← hrest] at hm
    simp only [List.cons_append, List.nil_append, List.mem_cons, List.mem_replicate] at hm
    rcases hm with hm | ⟨_, hm⟩ <;> (revert hm; decide)
  have e1 : separatorEntry width test = (colour ['3', '3'] ++ (['~', '~', '['] ++ (colour ['3', '7'] ++ (([' '] ++ showNat test ++ [' ']) ++
      (colour ['3', '3'] ++ (rest.take k ++ (noColour ++ ['\n']))))))) := by
    have e : separatorColour ++ ['~', '~', '['] ++ valueColour ++ [' '] ++ showNat test ++ [' '] ++ separatorColour ++ [']'] ++ List.replicate width '~' =
        (colour ['3', '3'] ++ ['~', '~', '['] ++ colour ['3', '7'] ++ [' '] ++ showNat test ++ [' '] ++ colour ['3', '3']) ++ rest := by
      rw [← hrest]; simp [separatorColour, valueColour]
    rw [separatorEntry, e, List.take_append, List.take_of_length_le]
    · have : width + separatorColour.length + valueColour.length + separatorColour.length -
          (colour ['3', '3'] ++ ['~', '~', '['] ++ colour ['3', '7'] ++ [' '] ++ showNat test ++ [' '] ++ colour ['3', '3']).length = k := by
        simp [separatorColour, valueColour, colour]; omega
      rw [this]
      simp
    · simp [separatorColour, valueColour, colour]; omega
  have h1 : Char.ofNat 27 ∉ [' '] ++ showNat test ++ [' '] := by
    have : Char.ofNat 27 ≠ ' ' := by decide
    simp [hd, this]
  rw [e1, paint_colour (by decide) (by decide), paint_text (by decide), paint_colour (by decide) (by decide), paint_text h1,
    paint_colour (by decide) (by decide), paint_text hr, paint_reset, paint_end]
  have e2 : (inColour ['3', '3'] ['~', '~', '['] ++ inColour ['3', '7'] ([' '] ++ showNat test ++ [' ']) ++ inColour ['3', '3'] rest).take width =
      inColour ['3', '3'] ['~', '~', '['] ++ inColour ['3', '7'] ([' '] ++ showNat test ++ [' ']) ++ inColour ['3', '3'] (rest.take k) := by
    rw [List.take_append, List.take_of_length_le (by simp [inColour]; omega)]
    have : width - (inColour ['3', '3'] ['~', '~', '['] ++ inColour ['3', '7'] ([' '] ++ showNat test ++ [' '])).length = k := by
      simp [inColour]; omega
    rw [this]
    simp [inColour, List.map_take]
  rw [e2]
  simp

/-- **C80**, finding: in a terminal that is too narrow for the number, what is shown is longer than the width, since the line is cut with all colour codes counted. -/
theorem C80_narrow : (paint ['0'] none (separatorEntry 4 7)).1.length = 7 := by decide +kernel

/-- **C80**, finding: the locale of the language selector is logged as its letters with commas between them. -/
theorem C80_locale {A : Type} : productEntries (A := A) (.locale "en_US") = [['e', ',', ' ', 'n', ',', ' ', '_', ',', ' ', 'U', ',', ' ', 'S', '\n']] := by
  rfl

/-- The stages of a query that differ from the stage before; the first if it is something at all (specification). -/
def changes (its : List (String × Value)) : List (String × Value) :=
  ((its.zip (.none :: its.map Prod.snd)).filter fun p => decide (p.1.2 ≠ p.2)).map Prod.fst

theorem iterationEntries_changes (its : List (String × Value)) (prev : Value) :
    iterationEntries its prev = (((its.zip (prev :: its.map Prod.snd)).filter fun p => decide (p.1.2 ≠ p.2)).map Prod.fst).flatMap fun it =>
      [subheaderEntry it.1.toList, entry (stripText (formatValue it.2 ['\n']))] := by
  induction its generalizing prev with
  | nil => rfl
  | cons it its ih =>
    obtain ⟨d, v⟩ := it
    simp only [iterationEntries, List.map_cons, List.zip_cons_cons, List.filter_cons]
    by_cases h : v = prev
    · subst h
      rw [if_neg (by simp), if_neg (by simp)]
      exact ih v
    · rw [if_pos h, if_pos (by simpa using h), ih v]
      rfl

/-- **C80** (composed queries) Of the stages of a query the log has those that changed it, in order, each with its name; after the executable, the
inferences and the return variables. -/
theorem C80_iterations {A : Type} (p : ComposerProduct) :
    ∃ front, front.length = 6 ∧ productEntries (A := A) (.composed p) = front ++ (changes p.iterations).flatMap fun it =>
      [subheaderEntry it.1.toList, entry (stripText (formatValue it.2 ['\n']))] :=
  ⟨_, rfl, by rw [productEntries, iterationEntries_changes]; rfl⟩

example : changes [("Composed", .num 1), ("Sorted", .num 1), ("Isolated", .num 2)] = [("Composed", .num 1), ("Isolated", .num 2)] := by
  decide +kernel

/-! ## A dialog -/

namespace LogEx

/-- A system that says `hi`. -/
def grammar : Grammar WriteSem :=
  [(['s'], [(0, [GRule.new (fun _ _ => 0) ⟨['s'], [], .relation, false, false⟩ [⟨['h', 'i'], [], .word, false, false⟩] (.user ⟨[], none, none⟩)])])]
def api : SolverApi SimpleStore := ⟨fun _ _ => pure (.rows [[]]), fun _ => pure ()⟩
def blocks : List (Block (Product (ParseTree Nat)) SimpleStore) := [⟨.findOne, languageSelector 7 ["en"]⟩]
def texts : LogTexts (Product (ParseTree Nat)) := ⟨fun _ => ['L'], productEntries⟩
def run (tests : List (Str × Value)) (lg : Logger) : Res (Logger × SimpleStore) Unit :=
  doRunLogged texts 3 (fun _ => ['1']) api blocks grammar (Lens.id _) 4 tests (lg, [])
def hello : Str × Value := (['h'], .str "hi")
def bye : Str × Value := (['b'], .str "hi")

/-- The entries after a run that went well. -/
def entriesOf : Res (Logger × SimpleStore) Unit → Option (List Str)
  | .ok s _ => some s.1.entries
  | _ => none

/-- The last test only: the log is about test 2 (the case of `C80_transcript`, `C80_last` and `C79_run`). -/
example : entriesOf (run [hello, bye] (Logger.new.logProducts [])) = some [separatorEntry 3 2, keyValueEntry ['H', 'u', 'm', 'a', 'n'] ['b'],
    headerEntry ['L'], ['e', ',', ' ', 'n', '\n'], keyValueEntry ['C', 'o', 'm', 'p', 'u', 't', 'e', 'r'] ['h', 'i'], commentEntry ['1']] := by
  decide +kernel

example : hello ∉ [bye] ∧ (Logger.new.logProducts []).whichTests = .last := by decide +kernel

/-- Other processors asked for, or none of the products: no results (the case of `C79_silent`). -/
example : entriesOf (run [hello, bye] (Logger.new.logProducts [8])) = entriesOf (run [hello, bye] Logger.new) ∧
    entriesOf (run [hello, bye] Logger.new) = some [separatorEntry 3 2, keyValueEntry ['H', 'u', 'm', 'a', 'n'] ['b'],
      keyValueEntry ['C', 'o', 'm', 'p', 'u', 't', 'e', 'r'] ['h', 'i'], commentEntry ['1']] := by
  decide +kernel

/-- All tests, none, and a repeated last test (the cases of `C80_none` and `C80_repeated`). -/
example : (entriesOf (run [hello, bye] (Logger.new.logTests .all))).map List.length = some 8 ∧
    entriesOf (run [hello, bye] (Logger.new.logTests .no)) = some [] ∧ (entriesOf (run [hello, hello] Logger.new)).map List.length = some 8 := by
  decide +kernel

/-- A wrong answer (the case of `C80_wrong`). -/
example : turn api blocks grammar (Lens.id _) 4 ['h'] [] = .ok [] (.str "hi") ∧ Value.str "hi" ≠ .str "ho" := by decide +kernel

/-- A result that is logged and one that is not (the cases of `C80_result`). -/
example : ((Logger.new.logTests .all).logProducts [7]).addProcessResult ['L'] texts.log 7 ⟨[], "not_understood", []⟩ =
      { (Logger.new.logTests .all).logProducts [7] with entries := [headerEntry ['L'], errorEntry "not_understood".toList] } ∧
    (((Logger.new.logTests .all).logProducts [7]).addProcessResult ['L'] texts.log 6 ⟨[], "not_understood", []⟩).entries = [] := by
  decide +kernel

end LogEx
end Verif

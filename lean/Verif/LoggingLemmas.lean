import Verif.Logging

/-!
# Runs with a log are runs without one, with entries added
-/

namespace Verif

section
variable {P W : Type}

/-- Change the world of an outcome. -/
def Res.mapWorld {S S' α : Type} (f : S → S') : Res S α → Res S' α
  | .ok s a => .ok (f s) a
  | .err s e => .err (f s) e
  | .oof => .oof

/-- What is logged for one result of a processor: its name, the error if there is one, and the products. -/
def pieceOf (L : LogTexts P) (i : Nat) (result : ProcResult P) : List Str :=
  headerEntry (L.name i) :: ((if result.errorType = "" then [] else [errorEntry result.errorType.toList]) ++ result.products.flatMap L.log)

/-- Lists of entries that consist of results of processors among `ids` that the logger has been asked to show. -/
inductive Pieces (L : LogTexts P) (ids : List Nat) (lg : Logger) : List Str → Prop
  | nil : Pieces L ids lg []
  | add {i : Nat} {result : ProcResult P} {es : List Str} : i ∈ ids → lg.isActive = true → lg.showProducts = true →
      (lg.processors = [] ∨ i ∈ lg.processors) → Pieces L ids lg es → Pieces L ids lg (pieceOf L i result ++ es)

theorem Pieces.append {L : LogTexts P} {ids : List Nat} {lg : Logger} {es fs : List Str} (h : Pieces L ids lg es) (h' : Pieces L ids lg fs) :
    Pieces L ids lg (es ++ fs) := by
  induction h with
  | nil => exact h'
  | add h1 h2 h3 h4 _ ih => rw [List.append_assoc]; exact .add h1 h2 h3 h4 ih

theorem Pieces.mono {L : LogTexts P} {ids ids' : List Nat} {lg : Logger} {es : List Str} (h : Pieces L ids lg es) (hs : ∀ i ∈ ids, i ∈ ids') :
    Pieces L ids' lg es := by
  induction h with
  | nil => exact .nil
  | add h1 h2 h3 h4 _ ih => exact .add (hs _ h1) h2 h3 h4 ih

theorem Pieces.of_append {L : LogTexts P} {ids : List Nat} {lg : Logger} {es fs : List Str} (h : Pieces L ids (lg.append fs) es) :
    Pieces L ids lg es := by
  induction h with
  | nil => exact .nil
  | add h1 h2 h3 h4 _ ih => exact .add h1 h2 h3 h4 ih

theorem Pieces.silent {L : LogTexts P} {ids : List Nat} {lg : Logger} {es : List Str} (h : Pieces L ids lg es)
    (hs : lg.isActive = false ∨ lg.showProducts = false) : es = [] := by
  cases h with
  | nil => rfl
  | add h1 h2 h3 h4 _ => rcases hs with hs | hs <;> simp_all

/-- `m'` does what `m` does, and adds entries of processors among `ids`. `c` puts a logger in the world. -/
def Logs {S S' α : Type} (L : LogTexts P) (ids : List Nat) (c : Logger → S → S') (m' : M S' α) (m : M S α) : Prop :=
  ∀ lg s, ∃ es, Pieces L ids lg es ∧ m' (c lg s) = (m s).mapWorld (c (lg.append es))

variable {S S' α β : Type} {L : LogTexts P} {ids : List Nat} {c : Logger → S → S'}

theorem Logger.append_nil (lg : Logger) : lg.append [] = lg := by simp [Logger.append]

theorem Logger.append_append (lg : Logger) (es fs : List Str) : (lg.append es).append fs = lg.append (es ++ fs) := by
  simp [Logger.append]

theorem Logs.pure (a : α) : Logs L ids c (Pure.pure a : M S' α) (Pure.pure a : M S α) :=
  fun lg s => ⟨[], .nil, by simp [Res.mapWorld, Logger.append_nil]⟩

theorem Logs.throw (e : Err) : Logs L ids c (M.throw e : M S' α) (M.throw e : M S α) :=
  fun lg s => ⟨[], .nil, by simp [Res.mapWorld, Logger.append_nil]⟩

theorem Logs.bind {m' : M S' α} {m : M S α} {f' : α → M S' β} {f : α → M S β} (h : Logs L ids c m' m) (hf : ∀ a, Logs L ids c (f' a) (f a)) :
    Logs L ids c (m' >>= f') (m >>= f) := by
  intro lg s
  obtain ⟨es, hp, he⟩ := h lg s
  cases hm : m s with
  | ok s1 a =>
    obtain ⟨fs, hq, hg⟩ := hf a (lg.append es) s1
    refine ⟨es ++ fs, hp.append hq.of_append, ?_⟩
    rw [hm] at he
    rw [M.bind_ok he, M.bind_ok hm, hg, Logger.append_append]
  | err s1 e =>
    refine ⟨es, hp, ?_⟩
    rw [hm] at he
    rw [M.bind_err he, M.bind_err hm]; rfl
  | oof =>
    refine ⟨es, hp, ?_⟩
    rw [hm] at he
    simp only [M.bind_run, he, hm, Res.mapWorld]

theorem Logs.gets {f' : S' → α} {f : S → α} (h : ∀ lg s, f' (c lg s) = f s) : Logs L ids c (M.gets f') (M.gets f) :=
  fun lg s => ⟨[], .nil, by simp [Res.mapWorld, Logger.append_nil, h]⟩

theorem Logs.modify {f' : S' → S'} {f : S → S} (h : ∀ lg s, f' (c lg s) = c lg (f s)) : Logs L ids c (M.modify f') (M.modify f) :=
  fun lg s => ⟨[], .nil, by simp [Res.mapWorld, Logger.append_nil, h]⟩

theorem Logs.mono {m' : M S' α} {m : M S α} {ids' : List Nat} (h : Logs L ids c m' m) (hs : ∀ i ∈ ids, i ∈ ids') : Logs L ids' c m' m := by
  intro lg s
  obtain ⟨es, hp, he⟩ := h lg s
  exact ⟨es, hp.mono hs, he⟩

/-- A logger in the world behind a request. -/
def inRequest (lg : Logger) (s : Request P × W) : Request P × (Logger × W) := (s.1, (lg, s.2))

/-- What `add_process_result` does. -/
theorem addProcessResult_eq (L : LogTexts P) (i : Nat) (result : ProcResult P) (lg : Logger) :
    ∃ es, Pieces L [i] lg es ∧ lg.addProcessResult (L.name i) L.log i result = lg.append es := by
  unfold Logger.addProcessResult
  split
  · rename_i h
    simp only [Bool.and_eq_true] at h
    split
    · rename_i h'
      refine ⟨pieceOf L i result ++ [], .add (by simp) h.1 h.2 h' .nil, ?_⟩
      simp only [pieceOf, List.append_nil]
      by_cases he : result.errorType = "" <;> simp [he]
    · exact ⟨[], .nil, (Logger.append_nil lg).symm⟩
  · exact ⟨[], .nil, (Logger.append_nil lg).symm⟩

theorem execProcess_logs (L : LogTexts P) (p : Processor P W) :
    Logs L [p.id] inRequest (execProcess (p.withLog L)) (execProcess p) := by
  intro lg s
  cases hp : p.process s.1 s.2 with
  | ok w result =>
    obtain ⟨es, h, he⟩ := addProcessResult_eq L p.id result lg
    exact ⟨es, h, by simp [execProcess, onWorld, Processor.withLog, inRequest, hp, Res.mapWorld, he]⟩
  | err w e => exact ⟨[], .nil, by simp [execProcess, onWorld, Processor.withLog, inRequest, hp, Res.mapWorld, Logger.append_nil]⟩
  | oof => exact ⟨[], .nil, by simp [execProcess, onWorld, Processor.withLog, inRequest, hp, Res.mapWorld]⟩

theorem onWorld_logs (m : M W α) : Logs L ids inRequest (onWorld (A := Request P) (onWorld (A := Logger) m)) (onWorld m) := by
  intro lg s
  refine ⟨[], .nil, ?_⟩
  cases hm : m s.2 <;> simp [onWorld, inRequest, hm, Res.mapWorld, Logger.append_nil]

theorem setCurrentProduct_logs (i : Nat) (p : P) :
    Logs L ids inRequest (setCurrentProduct (W := Logger × W) i p) (setCurrentProduct (W := W) i p) := Logs.modify fun _ _ => rfl

theorem setAlternativeProducts_logs (i : Nat) (ps : List P) :
    Logs L ids inRequest (setAlternativeProducts (W := Logger × W) i ps) (setAlternativeProducts (W := W) i ps) := Logs.modify fun _ _ => rfl

section
variable {next' : M (Request P × (Logger × W)) BlockResult} {next : M (Request P × W) BlockResult}

theorem findOneProducts_logs (i : Nat) (h : Logs L ids inRequest next' next) : ∀ (ps : List P) (last : BlockResult),
    Logs L ids inRequest (findOneProducts i next' ps last) (findOneProducts i next ps last)
  | [], last => Logs.pure last
  | p :: ps, _ => by
    refine Logs.bind (setCurrentProduct_logs i p) fun _ => Logs.bind h fun r => ?_
    split
    · exact Logs.pure _
    · exact findOneProducts_logs i h ps _

theorem findAllProducts_logs (i : Nat) (h : Logs L ids inRequest next' next) : ∀ (ps : List P) (success : Bool) (err : BlockResult),
    Logs L ids inRequest (findAllProducts i next' ps success err) (findAllProducts i next ps success err)
  | [], _, _ => Logs.pure _
  | p :: ps, _, _ => Logs.bind (setCurrentProduct_logs i p) fun _ => Logs.bind h fun _ => findAllProducts_logs i h ps _ _

theorem block_logs (b : Block P W) (h : Logs L ids inRequest next' next) (hb : b.processor.id ∈ ids) :
    Logs L ids inRequest ((b.withLog L).process next') (b.process next) := by
  have he : Logs L ids inRequest (execProcess (b.processor.withLog L)) (execProcess b.processor) :=
    (execProcess_logs L b.processor).mono (by simpa using hb)
  obtain ⟨kind, proc⟩ := b
  cases kind with
  | findOne =>
    refine Logs.bind he fun result => ?_
    split
    · exact Logs.pure _
    · exact Logs.bind (setAlternativeProducts_logs _ _) fun _ => findOneProducts_logs _ h _ _
  | findAll =>
    refine Logs.bind he fun result => ?_
    split
    · exact Logs.pure _
    · exact Logs.bind (Logs.gets fun _ _ => rfl) fun _ => Logs.bind (setAlternativeProducts_logs _ _) fun _ => findAllProducts_logs _ h _ _ _
  | tryFirst =>
    refine Logs.bind he fun result => ?_
    split
    · exact Logs.pure _
    · refine Logs.bind (setAlternativeProducts_logs _ _) fun _ => ?_
      split
      · exact Logs.pure _
      · exact Logs.bind (setCurrentProduct_logs _ _) fun _ => Logs.bind h fun _ => Logs.pure _
end

theorem runBlocks_logs (L : LogTexts P) : ∀ (blocks : List (Block P W)),
    Logs L (blocks.map fun b => b.processor.id) inRequest (runBlocks (blocks.map (Block.withLog L))) (runBlocks blocks)
  | [] => Logs.pure _
  | b :: bs => block_logs b ((runBlocks_logs L bs).mono fun i hi => List.mem_cons_of_mem _ hi) (by simp)

theorem enter_logs (L : LogTexts P) (api : SolverApi W) (blocks : List (Block P W)) :
    Logs L (blocks.map fun b => b.processor.id) inRequest (enter api.withLog (blocks.map (Block.withLog L))) (enter api blocks) := by
  unfold enter
  rw [List.getLast?_map]
  cases blocks.getLast? with
  | none => exact Logs.throw _
  | some last =>
    refine Logs.bind (runBlocks_logs L blocks) fun result => ?_
    split
    · exact Logs.bind (onWorld_logs _) fun _ => Logs.pure _
    · refine Logs.bind (Logs.gets fun _ _ => rfl) fun product => ?_
      cases product with
      | none => exact Logs.throw _
      | some p => exact Logs.pure _

/-- The middle of a test with logging: the pipeline and the output. -/
theorem turn_logs (L : LogTexts P) (api : SolverApi W) (blocks : List (Block P W)) (g : Grammar WriteSem) (l : Lens W SimpleStore) (n : Nat)
    (question : Str) :
    Logs L (blocks.map fun b => b.processor.id) Prod.mk
      (turnMiddle L api blocks g l n question) (turn api blocks g l n question) := by
  intro lg w
  obtain ⟨es, hp, he⟩ := enter_logs L api blocks lg (Request.new question, w)
  refine ⟨es, hp, ?_⟩
  have he' : enter api.withLog (blocks.map (Block.withLog L)) (Request.new question, (lg, w)) =
      (enter api blocks (Request.new question, w)).mapWorld (inRequest (lg.append es)) := he
  simp only [he', turn, turnMiddle]
  cases enter api blocks (Request.new question, w) with
  | ok s a =>
    simp only [Res.mapWorld, inRequest, onWorld]
    cases generateOutput api g l n s.2 <;> rfl
  | err s e => rfl
  | oof => rfl

/-- What is logged before and after the middle of a test. -/
def testOpening (width i : Nat) (question : Str) : List Str := [separatorEntry width (i + 1), keyValueEntry ['H', 'u', 'm', 'a', 'n'] question]
@[inherit_doc testOpening] def testClosing (time : Nat → Str) (i : Nat) (output : Value) : List Str :=
  [keyValueEntry ['C', 'o', 'm', 'p', 'u', 't', 'e', 'r'] (outputText output), commentEntry (time i)]

/-- One test with logging is the test without, with these entries added. -/
theorem turnLogged_eq (L : LogTexts P) (width : Nat) (time : Nat → Str) (api : SolverApi W) (blocks : List (Block P W)) (g : Grammar WriteSem)
    (l : Lens W SimpleStore) (n : Nat) (logThis : Bool) (i : Nat) (question : Str) (expected : Value) (lg : Logger) (w : W) :
    ∃ mid, Pieces L (blocks.map fun b => b.processor.id) { lg with isLastTest := logThis } mid ∧
      turnLogged L width time api blocks g l n logThis i question expected (lg, w) =
        match turn api blocks g l n question w with
        | .ok w' output =>
          let lg' := { lg with isLastTest := logThis }.append ((if logThis then testOpening width i question else []) ++ mid ++
            (if logThis ∨ output ≠ expected then testClosing time i output else []))
          if output = expected then .ok (lg', w') () else .err (lg', w') (.exception "AssertionError")
        | .err w' e => .err ({ lg with isLastTest := logThis }.append ((if logThis then testOpening width i question else []) ++ mid), w') e
        | .oof => .oof := by
  have key := turn_logs L api blocks g l n question
    ({ lg with isLastTest := logThis }.append (if logThis then testOpening width i question else [])) w
  obtain ⟨mid, hp, he⟩ := key
  refine ⟨mid, hp.of_append, ?_⟩
  have open_eq : (if logThis = true then { lg with isLastTest := logThis }.append [separatorEntry width (i + 1),
      keyValueEntry ['H', 'u', 'm', 'a', 'n'] question] else { lg with isLastTest := logThis }) =
      { lg with isLastTest := logThis }.append (if logThis then testOpening width i question else []) := by
    cases logThis <;> simp [testOpening, Logger.append_nil]
  unfold turnLogged
  rw [M.bind_ok (show onLogger _ (lg, w) = .ok ({ lg with isLastTest := logThis }, w) () from rfl),
    M.bind_ok (show onLogger _ ({ lg with isLastTest := logThis }, w) = .ok (_, w) () from rfl), open_eq]
  cases ht : turn api blocks g l n question w with
  | ok w' output =>
    rw [ht] at he
    rw [M.bind_ok he]
    by_cases h : output = expected <;> cases logThis <;>
      simp [h, onLogger, testClosing, Logger.append_append, Logger.append_nil, M.bind_run]
  | err w' e =>
    rw [ht] at he
    rw [M.bind_err he]
    simp [Logger.append_append]
  | oof =>
    rw [ht] at he
    simp only [M.bind_run, he, Res.mapWorld]

end

end Verif

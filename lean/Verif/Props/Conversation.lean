import Verif.Conversation
import Verif.Props.EndToEnd
import Verif.Props.Generator
import Verif.Props.Pipeline
import Verif.Props.Earley

/-!
# C72, C73: texts that can not be parsed, and dialogs

The specification uses the derivations of **C29** and **C34** (`Derives`, `Consumed`), the records that were stored (`LogRecord`) and the English texts.
-/

namespace Verif

variable {W : Type}

/-- `s()`. -/
def sCons : Constituent := ⟨['s'], [], .relation, false, false⟩

/-- A text in a rule. -/
def textCons (s : Str) : Constituent := ⟨s, [], .word, false, false⟩

/-- The texts of `en_us_write`. -/
def sorryText : Str := ['S', 'o', 'r', 'r', 'y', ',', ' ', 'I', ' ', 'd', 'o', 'n', '\'', 't', ' ', 'u', 'n', 'd', 'e', 'r', 's', 't', 'a', 'n', 'd']
def emptyText : Str := ['N', 'o', ' ', 's', 'e', 'n', 't', 'e', 'n', 'c', 'e', ' ', 'g', 'i', 'v', 'e', 'n']
def couldText : Str := ['C', 'o', 'u', 'l', 'd', ' ', 'n', 'o', 't', ' ', 'u', 'n', 'd', 'e', 'r', 's', 't', 'a', 'n', 'd', ':']

/-- The rules of `en_us_write`, parsed. -/
def sorryRule (H : Constituent → List Constituent → Nat) : WRule :=
  GRule.new H sCons [textCons sorryText] (.user ⟨[.tuple [.str "output_type", .str "not_understood"]], none, none⟩)
def emptyRule (H : Constituent → List Constituent → Nat) : WRule :=
  GRule.new H sCons [textCons emptyText] (.user ⟨[.tuple [.str "output_type", .str "no_sentence"]], none, none⟩)
def couldRule (H : Constituent → List Constituent → Nat) : WRule :=
  GRule.new H sCons [textCons couldText, ⟨[' '], [], .word, false, true⟩, ⟨['t', 'e', 'x', 't'], [['E', '1']], .relation, false, false⟩]
    (.user ⟨[.tuple [.str "output_type", .str "unknown_word"], .tuple [.str "output_unknown_word", .var "E1"]], none, none⟩)

theorem enUs_grammar (uni : Char → Bool) (H : Constituent → List Constituent → Nat) :
    parseWriteGrammar uni H enUsWrite = .ok [(['s'], [(0, [sorryRule H, emptyRule H, couldRule H])])] := by
  rfl

/-! ## The conditions of the rules -/

theorem output_notReserved : NotReserved W outputRelations := by
  refine ⟨by decide +kernel, by decide +kernel, fun p f h => ?_⟩
  cases hp : outputRelations.get p with
  | none => rfl
  | some cs =>
    have hp : p ∈ outputRelations.map Prod.fst := List.mem_map.2 ⟨_, Dict.mem_of_get hp, rfl⟩
    simp only [outputRelations, List.map_cons, List.map_nil, List.mem_cons, List.not_mem_nil, or_false] at hp
    rcases hp with rfl | rfl | rfl | rfl | rfl | rfl | rfl <;> cases h

/-- The records in the buffer are complete and hold proper values. -/
def BufferOk (log : List LogRecord) : Prop := ∀ r ∈ log, RecordOk outputRelations r ∧ ∀ v ∈ r.values, Plain v

/-- The first row of the relation (specification). -/
def firstStored (log : List LogRecord) (p : String) : Option (List Value) := (log.find? fun r => decide (r.table = p)).map LogRecord.values

/-- A row of the relation is stored (specification). -/
def IsStored (log : List LogRecord) (p : String) (row : List Value) : Prop := ∃ r ∈ log, r.table = p ∧ r.values = row

theorem empty_of_has {b : Binding} (h : ∀ x, b.has x = false) : b = [] := by
  cases b with
  | nil => rfl
  | cons kv b => have := h kv.1; simp [Dict.has, Dict.get] at this

theorem plainB_empty : PlainB [] := fun x v h => by simp [Dict.get] at h

theorem type_condition {ms : List (Module W)} {l : Lens W SimpleStore} {w : W} (hm : StoresIn ms l outputRelations w) {log : List LogRecord}
    (hw : Represents (l.get w) log) (hlog : BufferOk log) (t : String) (k : Nat) :
    (solverAt (modelOf ms) (k + 1)).solve (toQuery [("output_type", [.str t])]) [] w = .ok w (.rows [[]]) ∧ IsStored log "output_type" [.str t] ∨
    (solverAt (modelOf ms) (k + 1)).solve (toQuery [("output_type", [.str t])]) [] w = .ok w (.rows []) ∧ ¬ IsStored log "output_type" [.str t] := by
  obtain ⟨hok, hholds⟩ := holds_memory hm output_notReserved hw hlog
  have hq : QueryOk (relAr outputRelations) [("output_type", [.str t])] := by
    intro a ha
    simp only [List.mem_singleton] at ha
    subst ha
    refine ⟨?_, ?_⟩
    · show relAr outputRelations "output_type" = some 1
      decide +kernel
    · have : Plain (.str t) := ⟨by simp, rfl, rfl⟩
      simp [ArgsOk, this]
  obtain ⟨bs, h1, h2, h3, h4⟩ := holds_exact hok hholds hq plainB_empty k
  have hv : queryVars [("output_type", [.str t])] = [] := rfl
  have hb : ∀ b ∈ bs, b = [] := fun b hb => empty_of_has fun x => by
    have := (h2 b hb).2.1 x
    rw [hv] at this
    simpa [Dict.has, Dict.get] using this
  have hst : ∀ σ, AllStored [memoryDb outputRelations log] [("output_type", [.str t])] σ ↔ IsStored log "output_type" [.str t] := by
    intro σ
    rw [allStored_memory hq]
    simp [AllInLog, IsStored, inst]
  cases bs with
  | nil =>
    right
    refine ⟨h1, fun hs => ?_⟩
    obtain ⟨b, hb, _⟩ := h3 (fun _ => .str "") (fun _ => ⟨by simp, rfl, rfl⟩) (fun x v h => by simp [Dict.get] at h) ((hst _).2 hs)
    simp at hb
  | cons b bs =>
    left
    refine ⟨?_, (hst _).1 (h2 b (by simp)).2.2⟩
    rw [h1, hb b (by simp)]
    cases bs with
    | nil => rfl
    | cons b2 bs =>
      have := hb b2 (by simp)
      subst this
      have := hb b (by simp)
      subst this
      simp at h4

theorem foldl_addNew_head (rs : List Binding) (b : Binding) (acc : List Binding) : ∃ rest, rs.foldl addNew (b :: acc) = b :: rest := by
  induction rs generalizing acc with
  | nil => exact ⟨acc, rfl⟩
  | cons r rs ih =>
    rw [List.foldl_cons]
    have : ∃ acc', addNew (b :: acc) r = b :: acc' := by
      unfold addNew
      split
      · exact ⟨acc, rfl⟩
      · exact ⟨acc ++ [r], rfl⟩
    obtain ⟨acc', h⟩ := this
    rw [h]; exact ih acc'

theorem rowsOf_head (log : List LogRecord) (p : String) : (rowsOf log p).head? = firstStored log p := by
  induction log with
  | nil => rfl
  | cons r log ih =>
    simp only [rowsOf, firstStored, List.filter_cons, List.find?_cons] at ih ⊢
    by_cases h : r.table = p <;> simp [h, ih]

/-- Asking for the value of a relation with one argument gives first the value that was stored first. -/
theorem value_condition {ms : List (Module W)} {l : Lens W SimpleStore} {w : W} (hm : StoresIn ms l outputRelations w) {log : List LogRecord}
    (hw : Represents (l.get w) log) (hlog : BufferOk log) {p col : String} (hp : outputRelations.get p = some [col]) (x : String) (k : Nat) :
    (∃ bs, (solverAt (modelOf ms) (k + 1)).solve (toQuery [(p, [.var x])]) [] w = .ok w (.rows bs) ∧
      ((bs = [] ∧ firstStored log p = none) ∨
       ∃ b rest v, bs = b :: rest ∧ firstStored log p = some [v] ∧ b.get x = some v)) := by
  obtain ⟨bs, h1, h2⟩ := memory_order hm output_notReserved hw hlog (p := p) (args := [.var x]) (by simp [relAr, hp])
    plainB_empty k
  refine ⟨bs, h1, ?_⟩
  have hrow : ∀ row ∈ rowsOf log p, ∃ v, row = [v] ∧ v ≠ .none := by
    intro row hr
    simp only [rowsOf, List.mem_map, List.mem_filter, decide_eq_true_eq] at hr
    obtain ⟨r, ⟨hr, ht⟩, rfl⟩ := hr
    obtain ⟨hrec, hpl⟩ := hlog r hr
    have hc := hrec.columns
    rw [ht] at hc
    have : r.columns = [col] := (Option.some.inj (hc.symm.trans hp))
    have hlen := hrec.length
    rw [this] at hlen
    match hv : r.values, hlen with
    | [v], _ => exact ⟨v, rfl, hrec.values v (by rw [hv]; simp)⟩
  rw [← rowsOf_head]
  cases hrows : rowsOf log p with
  | nil =>
    rw [hrows] at h2
    simp only [distinct, List.filter_nil, List.map_eq_nil_iff] at h2
    exact .inl ⟨h2, rfl⟩
  | cons row rows =>
    obtain ⟨v, rfl, hv⟩ := hrow row (by rw [hrows]; simp)
    rw [hrows] at h2
    have hex : ∃ σ : Assignment, Agrees σ [] ∧ [Value.var x].map (inst σ) = [v] :=
      ⟨fun _ => v, fun x u h => by simp [Dict.get] at h, rfl⟩
    rw [distinct, List.filter_cons, if_pos (by simpa using hex)] at h2
    cases bs with
    | nil => simp at h2
    | cons b bs =>
      right
      refine ⟨b, bs, v, rfl, rfl, ?_⟩
      simp only [List.map_cons, List.map_nil, List.cons.injEq, inst, and_true] at h2
      have := h2.1
      unfold asg at this
      cases hg : b.get x with
      | none => rw [hg] at this; exact absurd this.symm hv
      | some u => rw [hg] at this; simp only [Option.getD_some] at this; rw [this]

/-- The condition of a write rule that asks for the type of the output and for a value. -/
theorem typed_condition {ms : List (Module W)} {l : Lens W SimpleStore} {w : W} (hm : StoresIn ms l outputRelations w) {log : List LogRecord}
    (hw : Represents (l.get w) log) (hlog : BufferOk log) (t : String) {p col : String} (hp : outputRelations.get p = some [col]) (x : String) (k : Nat) :
    (∃ b rest v, (solverAt (modelOf ms) (k + 1)).solve (toQuery [("output_type", [.str t]), (p, [.var x])]) [] w =
      .ok w (.rows (b :: rest)) ∧ IsStored log "output_type" [.str t] ∧ firstStored log p = some [v] ∧
        b.get x = some v) ∨
    ((solverAt (modelOf ms) (k + 1)).solve (toQuery [("output_type", [.str t]), (p, [.var x])]) [] w =
      .ok w (.rows []) ∧ (IsStored log "output_type" [.str t] → firstStored log p = none)) := by
  obtain ⟨bs, h1, h2⟩ := value_condition hm hw hlog hp x k
  have hstep : ∀ o, solveSingle (solverAt (modelOf ms) k) (modelOf ms) (toAtom ("output_type", [.str t])) [] w = .ok w (.rows o) →
      (solverAt (modelOf ms) (k + 1)).solve (toQuery [("output_type", [.str t]), (p, [.var x])]) [] w =
      collect (solveAtoms (solverAt (modelOf ms) k) (modelOf ms) [toAtom (p, [.var x])]) o [] w := by
    intro o ho
    show solveAtoms (solverAt (modelOf ms) k) (modelOf ms) [toAtom ("output_type", [.str t]), toAtom (p, [.var x])] [] w = _
    rw [solveAtoms, M.bind_ok ho]
  rcases type_condition hm hw hlog t k with ⟨h, hs⟩ | ⟨h, hs⟩
  · rw [hstep _ h, collect, M.bind_ok (show solveAtoms (solverAt (modelOf ms) k) (modelOf ms) [toAtom (p, [.var x])] [] w =
      .ok w (.rows bs) from h1)]
    dsimp only
    rw [collect, M.pure_run]
    rcases h2 with ⟨rfl, h2⟩ | ⟨b, rest, v, rfl, h2, h3⟩
    · exact .inr ⟨rfl, fun _ => h2⟩
    · obtain ⟨rest', hr⟩ := foldl_addNew_head rest b []
      refine .inl ⟨b, rest', v, ?_, hs, h2, h3⟩
      rw [List.foldl_cons]
      have : addNew [] b = [b] := by simp [addNew]
      rw [this, hr]
  · right
    refine ⟨?_, fun h => absurd h hs⟩
    rw [hstep _ h]; rfl

theorem report_condition {ms : List (Module W)} {l : Lens W SimpleStore} {w : W} (hm : StoresIn ms l outputRelations w) {log : List LogRecord}
    (hw : Represents (l.get w) log) (hlog : BufferOk log) (k : Nat) :
    (∃ b rest v, (solverAt (modelOf ms) (k + 1)).solve (toQuery [("output_type", [.str "unknown_word"]), ("output_unknown_word", [.var "E1"])]) [] w =
      .ok w (.rows (b :: rest)) ∧ IsStored log "output_type" [.str "unknown_word"] ∧ firstStored log "output_unknown_word" = some [v] ∧
        b.get "E1" = some v) ∨
    ((solverAt (modelOf ms) (k + 1)).solve (toQuery [("output_type", [.str "unknown_word"]), ("output_unknown_word", [.var "E1"])]) [] w =
      .ok w (.rows []) ∧ (IsStored log "output_type" [.str "unknown_word"] → firstStored log "output_unknown_word" = none)) :=
  typed_condition hm hw hlog "unknown_word" (col := "word") (by decide +kernel) "E1" k

/-! ## The messages -/

/-- The message for the contents of the buffer (specification). -/
inductive Message (log : List LogRecord) : Value → Prop
  | notUnderstood (h : IsStored log "output_type" [.str "not_understood"]) : Message log (.str "Sorry, I don't understand")
  | noSentence (h1 : ¬ IsStored log "output_type" [.str "not_understood"]) (h : IsStored log "output_type" [.str "no_sentence"]) :
      Message log (.str "No sentence given")
  | unknown (h1 : ¬ IsStored log "output_type" [.str "not_understood"]) (h2 : ¬ IsStored log "output_type" [.str "no_sentence"])
      (h : IsStored log "output_type" [.str "unknown_word"]) {v : Value} (hv : firstStored log "output_unknown_word" = some [v]) :
      Message log (.str ("Could not understand: " ++ pyStr v))

theorem genNode_words {api : SolverApi W} {g : Grammar WriteSem} {w : W} {rule : WRule} {b : Binding} {cat : Str} {values : List Value}
    (hf : findRule api g [] cat values w = .ok w (some rule, b)) (n : Nat) {words : List Value}
    (hw : genWords (genNode api g n) rule b rule.cons [rule.hash] w = .ok w ([rule.hash], words)) (hp : rule.parts.post = none) :
    genNode api g (n + 1) [] cat values false w = .ok w ([rule.hash], combineWords words) := by
  rw [genNode, M.bind_ok hf]
  dsimp only
  rw [List.nil_append, M.bind_ok hw]
  simp only [postProcess, hp]
  rfl

theorem generate_of_node {api : SolverApi W} {g : Grammar WriteSem} {l : Lens W SimpleStore} {n : Nat} {w w' : W} {r : List Nat × Value}
    (h : genNode api g n [] ['s'] [] false w = .ok w' r) : generateOutput api g l n w = .ok (l.put SimpleStore.clear w') r.2 := by
  rw [generateOutput, M.bind_ok h, clearBuffer, M.bind_ok (M.modify_run _ w')]
  rfl

/-- **C72** What the write grammar `en_us_write` says about any contents of the output buffer. -/
theorem C72_message {ms : List (Module W)} {l : Lens W SimpleStore} {w : W} (hm : StoresIn ms l outputRelations w) (uni : Char → Bool)
    (H : Constituent → List Constituent → Nat) {g : Grammar WriteSem} (hg : parseWriteGrammar uni H enUsWrite = .ok g) {log : List LogRecord}
    (hw : Represents (l.get w) log) (hlog : BufferOk log) (k n : Nat) :
    (∃ v, Message log v ∧ generateOutput (solverAt (modelOf ms) (k + 1)) g l (n + 1) w = .ok (l.put SimpleStore.clear w) v) ∨
    ((∀ v, ¬ Message log v) ∧
      generateOutput (solverAt (modelOf ms) (k + 1)) g l (n + 1) w = .err w (.exception "No rule found")) := by
  rw [enUs_grammar] at hg
  simp only [Except.ok.injEq] at hg
  subst hg
  generalize hgr : ([(['s'], [(0, [sorryRule H, emptyRule H, couldRule H])])] : Grammar WriteSem) = g
  have hfind : Grammar.findRules g ['s'] ([] : List Value).length = [sorryRule H, emptyRule H, couldRule H] := by rw [← hgr]; rfl
  generalize hapi : solverAt (modelOf ms) (k + 1) = api
  have hfr : findRule api g [] ['s'] [] w = findRuleLoop api [] [] [sorryRule H, emptyRule H, couldRule H] none [] w := by
    unfold findRule; rw [hfind]
  have ht1 := type_condition hm hw hlog "not_understood" k
  have ht2 := type_condition hm hw hlog "no_sentence" k
  have ht3 := report_condition hm hw hlog k
  rw [hapi] at ht1 ht2 ht3
  rcases ht1 with ⟨h1, s1⟩ | ⟨h1, s1⟩
  · refine .inl ⟨_, .notUnderstood s1, ?_⟩
    have hc : CondHolds api [] w (sorryRule H) [] := .inr ⟨by simp [sorryRule, GRule.new, WRule.condition], [], h1⟩
    have : findRule api g [] ['s'] [] w = .ok w (some (sorryRule H), []) := by
      rw [hfr, findRuleLoop_step (tryWriteRule_holds _ hc)]; rfl
    exact generate_of_node (genNode_words this n (words := [.str "Sorry, I don't understand"]) (by rfl) rfl)
  have f1 : CondFails api [] w (sorryRule H) := ⟨by simp [sorryRule, GRule.new, WRule.condition], _, h1, rfl⟩
  rcases ht2 with ⟨h2, s2⟩ | ⟨h2, s2⟩
  · refine .inl ⟨_, .noSentence s1 s2, ?_⟩
    have hc : CondHolds api [] w (emptyRule H) [] := .inr ⟨by simp [emptyRule, GRule.new, WRule.condition], [], h2⟩
    have : findRule api g [] ['s'] [] w = .ok w (some (emptyRule H), []) := by
      rw [hfr, findRuleLoop_step (tryWriteRule_fails _ f1)]
      show findRuleLoop api [] [] [emptyRule H, couldRule H] none [] w = _
      rw [findRuleLoop_step (tryWriteRule_holds _ hc)]; rfl
    exact generate_of_node (genNode_words this n (words := [.str "No sentence given"]) (by rfl) rfl)
  have f2 : CondFails api [] w (emptyRule H) := ⟨by simp [emptyRule, GRule.new, WRule.condition], _, h2, rfl⟩
  rcases ht3 with ⟨b, rest, v, h3, s3, s4, hb⟩ | ⟨h3, s3⟩
  · refine .inl ⟨_, .unknown s1 s2 s3 s4, ?_⟩
    have hc : CondHolds api [] w (couldRule H) b := .inr ⟨by simp [couldRule, GRule.new, WRule.condition], rest, h3⟩
    have : findRule api g [] ['s'] [] w = .ok w (some (couldRule H), b) := by
      rw [hfr, findRuleLoop_step (tryWriteRule_fails _ f1)]
      show findRuleLoop api [] [] [emptyRule H, couldRule H] none [] w = _
      rw [findRuleLoop_step (tryWriteRule_fails _ f2)]
      show findRuleLoop api [] [] [couldRule H] none [] w = _
      rw [findRuleLoop_step (tryWriteRule_holds _ hc)]; rfl
    have hwords : genWords (genNode api g n) (couldRule H) b (couldRule H).cons [(couldRule H).hash] w =
        .ok w ([(couldRule H).hash], [.str "Could not understand:", .str " ", .str (pyStr v)]) := by
      have hcv : consequentValues ⟨['t', 'e', 'x', 't'], [['E', '1']], .relation, false, false⟩ b = [v] := by
        simp only [consequentValues, List.map_cons, List.map_nil, reduceCtorEq, if_false]
        rw [show String.ofList ['E', '1'] = "E1" from rfl, hb]; rfl
      show genWords (genNode api g n) (couldRule H) b [textCons couldText, ⟨[' '], [], .word, false, true⟩,
        ⟨['t', 'e', 'x', 't'], [['E', '1']], .relation, false, false⟩] _ w = _
      simp only [genWords, hcv]
      rfl
    have := generate_of_node (l := l) (genNode_words this n hwords rfl)
    rw [this]
    simp [combineWords, textsOf, String.join]
  · have f3 : CondFails api [] w (couldRule H) := ⟨by simp [couldRule, GRule.new, WRule.condition], _, h3, rfl⟩
    right
    refine ⟨fun v hv => ?_, ?_⟩
    · cases hv with
      | notUnderstood h => exact s1 h
      | noSentence _ h => exact s2 h
      | unknown _ _ h hv => rw [s3 h] at hv; simp at hv
    · have : findRule api g [] ['s'] [] w = .ok w (none, []) := by
        rw [hfr, findRuleLoop_step (tryWriteRule_fails _ f1)]
        show findRuleLoop api [] [] [emptyRule H, couldRule H] none [] w = _
        rw [findRuleLoop_step (tryWriteRule_fails _ f2)]
        show findRuleLoop api [] [] [couldRule H] none [] w = _
        rw [findRuleLoop_step (tryWriteRule_fails _ f3)]; rfl
      rw [generateOutput]
      refine M.bind_err ?_
      rw [genNode, M.bind_ok this]
      rfl

/-! ## Sessions -/

/-- The part of the world as part of the session. -/
def Lens.inSession {S : Type} (l : Lens W S) : Lens (Session W) S :=
  ⟨fun s => l.get s.world, fun x s => { s with world := l.put x s.world }, fun x s => l.get_put x s.world,
   fun s => by simp [l.put_get], fun x y s => by simp [l.put_put]⟩

theorem inWorld_pure {α : Type} (a : α) : inWorld (W := W) (pure a) = pure a := rfl

theorem inWorld_throw {α : Type} (e : Err) : inWorld (W := W) (M.throw e : M W α) = M.throw e := rfl

theorem inWorld_oof {α : Type} : inWorld (W := W) (M.oof : M W α) = M.oof := rfl

theorem inWorld_lift {α : Type} (x : Except Err α) : inWorld (W := W) (M.lift x) = M.lift x := by
  cases x <;> rfl

theorem inWorld_bind {α β : Type} (m : M W α) (f : α → M W β) : inWorld (m >>= f) = inWorld m >>= fun a => inWorld (f a) := by
  funext s
  rw [M.bind_run]
  simp only [inWorld]
  rw [M.bind_run]
  cases m s.world <;> rfl

section
variable (api : SolverApi W) (g : Grammar WriteSem)

theorem tryWriteRule_inSession (rule : WRule) (res : Option WRule) (b : Binding) :
    tryWriteRule api.inSession rule res b = inWorld (tryWriteRule api rule res b) := by
  unfold tryWriteRule
  cases rule.parts.sem with
  | nil => rfl
  | cons a as =>
    dsimp only
    rw [inWorld_bind]
    congr 1
    funext o
    cases o with
    | rows rs => cases rs <;> rfl
    | iter _ k => cases k <;> rfl

theorem findRuleLoop_inSession (used : List Nat) (values : List Value) (rules : List WRule) (res : Option WRule) (b : Binding) :
    findRuleLoop api.inSession used values rules res b = inWorld (findRuleLoop api used values rules res b) := by
  induction rules generalizing res b with
  | nil => rfl
  | cons r rs ih =>
    simp only [findRuleLoop, inWorld_bind, tryWriteRule_inSession]
    congr 1
    funext o
    split
    · rfl
    · exact ih _ _

theorem genWords_inSession {node : List Nat → Str → List Value → Bool → M W (List Nat × Value)}
    {node' : List Nat → Str → List Value → Bool → M (Session W) (List Nat × Value)} (hn : ∀ u c v o, node' u c v o = inWorld (node u c v o))
    (rule : WRule) (b : Binding) (cs : List Constituent) (used : List Nat) :
    genWords node' rule b cs used = inWorld (genWords node rule b cs used) := by
  induction cs generalizing used with
  | nil => rfl
  | cons c cs ih =>
    simp only [genWords, inWorld_bind]
    have : genConsequent node' rule used c (consequentValues c b) = inWorld (genConsequent node rule used c (consequentValues c b)) := by
      unfold genConsequent
      split
      · rfl
      · split
        · rw [inWorld_bind, inWorld_lift]; rfl
        · split
          · rw [inWorld_bind, inWorld_lift]; rfl
          · split
            · rw [inWorld_bind, inWorld_lift]; rfl
            · exact hn _ _ _ _
    rw [this]
    congr 1
    funext r
    rw [ih]
    rfl

theorem genNode_inSession (n : Nat) (used : List Nat) (cat : Str) (values : List Value) (optional : Bool) :
    genNode api.inSession g n used cat values optional = inWorld (genNode api g n used cat values optional) := by
  induction n generalizing used cat values optional with
  | zero => rfl
  | succ n ih =>
    simp only [genNode, inWorld_bind, findRule, findRuleLoop_inSession]
    congr 1
    funext r
    obtain ⟨rule, b⟩ := r
    cases rule with
    | none => dsimp only; split <;> rfl
    | some rule =>
      dsimp only
      simp only [inWorld_bind, genWords_inSession ih, inWorld_lift]
      rfl

theorem generateOutput_inSession (l : Lens W SimpleStore) (n : Nat) :
    generateOutput api.inSession g l.inSession n = inWorld (generateOutput api g l n) := by
  simp only [generateOutput, inWorld_bind, genNode_inSession]
  rfl

end

/-! ## A turn whose text has no parse -/

theorem storeAll_put (l : Lens W SimpleStore) (rels : Dict (List String)) (b : Binding) (atoms : Query) (w : W) :
    ∃ x, storeAll l rels b atoms w = l.put x w := by
  induction atoms generalizing w with
  | nil => exact ⟨l.get w, (l.put_get w).symm⟩
  | cons a atoms ih =>
    obtain ⟨x, hx⟩ := ih (l.put ((l.get w).insert a.1 ((rels.get a.1).getD []) (a.2.map (bindVars b))) w)
    exact ⟨x, by rw [← l.put_put x _ w, ← hx]; rfl⟩

/-- The query with which `enter` reports an error. -/
def reportQuery (e : ParseError) : Value :=
  .list [.tuple [.str "store", .list [.tuple [.str "output_type", .str e.type], .tuple (.str ("output_" ++ e.type) :: e.args)]]]

theorem enter_error {E : Oracles} {fuel depth : Nat} {optimizer : Option (List (Module W))} {api : SolverApi W} {text : Str} {s : Session W}
    {e : ParseError} {gr : Grammar Attachment} (h : basicParse E fuel depth s.grammar text = (.ok ([], e), gr)) :
    enter api.inSession (sentencePipeline E fuel depth optimizer api) (Request.new text, s) =
      (match api.solve (reportQuery e) [] s.world with
      | .ok w _ => .ok (Request.new text, { s with grammar := gr, world := w }) none
      | .err w er => .err (Request.new text, { s with grammar := gr, world := w }) er
      | .oof => .oof) := by
  have hty : e.type ≠ "" := by
    have := (parse_trees (E := E) (fuel := fuel) (depth := depth) (g := s.grammar) (text := text) (by rw [h])).1
    rw [Ne, this]; simp
  have hrun : runBlocks (sentencePipeline E fuel depth optimizer api) (Request.new text, s) =
      .ok (Request.new text, { s with grammar := gr }) ⟨e.type, e.args⟩ := by
    simp only [sentencePipeline, runBlocks, Block.process, findOne]
    have : execProcess (basicParser (W := W) 0 E fuel depth) (Request.new text, s) =
        .ok (Request.new text, { s with grammar := gr }) ⟨[], e.type, e.args⟩ := by
      simp only [execProcess, onWorld, basicParser]
      rw [show (Request.new (P := Product (ParseTree Attachment)) text).text = text from rfl, h]
      rfl
    rw [M.bind_ok this]
    rw [if_pos hty]; rfl
  unfold enter
  have hl : (sentencePipeline E fuel depth optimizer api).getLast? = some ⟨.tryFirst, atomExecutor 2 1 api.inSession⟩ := rfl
  rw [hl]
  dsimp only
  rw [M.bind_ok hrun, if_pos hty, M.bind_run]
  simp only [onWorld, SolverApi.inSession, inWorld]
  show _ = (match api.solve (reportQuery e) [] s.world with | _ => _)
  unfold reportQuery
  cases api.solve (.list [.tuple [.str "store", .list [.tuple [.str "output_type", .str e.type], .tuple (.str ("output_" ++ e.type) :: e.args)]]]) [] s.world <;> rfl

/-- The longest part of the text that can be read from the left with the grammar (specification). -/
def LongestRead (E : Oracles) (rules : List (GRule Attachment)) (text : Str) (k : Nat) : Prop :=
  Consumed E rules text k ∧ ∀ k', Consumed E rules text k' → k' ≤ k

theorem longestRead_unique {E : Oracles} {rules : List (GRule Attachment)} {text : Str} {k k' : Nat} (h : LongestRead E rules text k)
    (h' : LongestRead E rules text k') : k = k' := Nat.le_antisymm (h'.2 _ h.1) (h.2 _ h'.1)

/-- What the parser returns for a text without a derivation. -/
theorem parse_no_derivation (E : Oracles) (rules : List (GRule Attachment)) (ok : RulesOk rules) (names : NamesOk rules)
    (wf : WellFounded (UnitStep rules)) (text : Str) (hl : LowerOk E (normalizeSpace text))
    (hno : ∀ d, ¬ WholeDerivation E rules (normalizeSpace text) d) :
    ∃ N, ∀ fuel depth, N ≤ fuel → N ≤ depth → ∀ fuel' depth' texts, ∃ K e, LongestRead E rules (normalizeSpace text) K ∧
      (e = if K < (normalizeSpace text).length then .unknownWord (((normalizeSpace text).drop K).take 9 ++ [' ', '.', '.', '.'])
          else if normalizeSpace text = [] then .noSentence else .notUnderstood) ∧
      basicParse E fuel depth (parseHistory E fuel' depth' (Grammar.new rules) texts) text =
        (.ok ([], e), parseHistory E fuel' depth' (Grammar.new rules) (texts ++ [normalizeSpace text])) := by
  obtain ⟨N, hN⟩ := C61_returns E rules ok wf (normalizeSpace text) hl
  refine ⟨N, fun fuel depth h1 h2 fuel' depth' texts => ?_⟩
  obtain ⟨⟨trees, e⟩, hr⟩ := hN fuel depth h1 h2
  have htrees : trees = [] := by
    cases trees with
    | nil => rfl
    | cons t ts =>
      obtain ⟨c, d, hc1, hc2, hd, _⟩ := C29_derivation E rules ok _ hl fuel depth _ e hr t (by simp)
      exact absurd ⟨c, hc1, hc2, hd⟩ (hno d)
  subst htrees
  obtain ⟨K, k1, k2, k3⟩ := (C34_error E rules ok names _ hl fuel depth _ e hr).2 rfl
  refine ⟨K, e, ⟨k1, k2⟩, k3, ?_⟩
  have e1 : (basicParse E fuel depth (parseHistory E fuel' depth' (Grammar.new rules) texts) text).1 = .ok ([], e) := by
    rw [C33_no_memory_block]
    simp only [basicParse, hr, Out.bind]
    rfl
  have e2 : (basicParse E fuel depth (parseHistory E fuel' depth' (Grammar.new rules) texts) text).2 =
      parseHistory E fuel' depth' (Grammar.new rules) (texts ++ [normalizeSpace text]) := by
    rw [parseHistory, parseHistory, List.foldl_append]; rfl
  rw [← e1, ← e2]

section
variable {ms : List (Module W)} {l : Lens W SimpleStore} (uni : Char → Bool)
  (H : Constituent → List Constituent → Nat) {g : Grammar WriteSem} (hg : parseWriteGrammar uni H enUsWrite = .ok g)
  (E : Oracles) (rules : List (GRule Attachment)) (ok : RulesOk rules) (names : NamesOk rules) (wf : WellFounded (UnitStep rules))
  (text : Str) (hl : LowerOk E (normalizeSpace text)) (hno : ∀ d, ¬ WholeDerivation E rules (normalizeSpace text) d)
  {K : Nat} (hK : LongestRead E rules (normalizeSpace text) K)

include hg ok names wf hl hno hK

omit hno hK in
/-- A turn whose text can not be read, for any contents of the buffer. -/
theorem turn_unreadable (hno : ∀ d, ¬ WholeDerivation E rules (normalizeSpace text) d) (hK : LongestRead E rules (normalizeSpace text) K)
    (hlt : K < (normalizeSpace text).length) :
    ∃ N, ∀ fuel depth, N ≤ fuel → N ≤ depth → ∀ optimizer fuel' depth' texts (s : Session W) log k n,
      StoresIn ms l outputRelations s.world → s.grammar = parseHistory E fuel' depth' (Grammar.new rules) texts → Represents (l.get s.world) log → BufferOk log →
      ∃ v, Message (log ++ [⟨"output_type", ["type"], [.str "unknown_word"]⟩, ⟨"output_unknown_word", ["word"],
          [.str (String.ofList (((normalizeSpace text).drop K).take 9 ++ [' ', '.', '.', '.']))]⟩]) v ∧
        turn (solverAt (modelOf ms) (k + 2)).inSession (sentencePipeline E fuel depth optimizer (solverAt (modelOf ms) (k + 2))) g l.inSession (n + 1)
          text s =
        .ok { s with grammar := parseHistory E fuel' depth' (Grammar.new rules) (texts ++ [normalizeSpace text]), world := l.put SimpleStore.clear s.world }
          v := by
  obtain ⟨N, hN⟩ := parse_no_derivation E rules ok names wf text hl hno
  refine ⟨N, fun fuel depth h1 h2 optimizer fuel' depth' texts s log k n hm hgr hw hlog0 => ?_⟩
  obtain ⟨K', e, hK', he, hp⟩ := hN fuel depth h1 h2 fuel' depth' texts
  obtain rfl := longestRead_unique hK hK'
  rw [if_pos hlt] at he
  rw [← hgr] at hp
  generalize hpart : ((normalizeSpace text).drop K).take 9 ++ [' ', '.', '.', '.'] = part at he ⊢
  subst he
  have hst := C18_store hm (atoms := [("output_type", [.str "unknown_word"]), ("output_unknown_word", [.str (String.ofList part)])])
    (by
      intro a ha
      simp only [List.mem_cons, List.not_mem_nil, or_false] at ha
      rcases ha with rfl | rfl <;> rfl) [] k
  have hrep := storeAll_represents l outputRelations [] [("output_type", [.str "unknown_word"]), ("output_unknown_word", [.str (String.ofList part)])] s.world
    (log := log) hw
  obtain ⟨x, hx⟩ := storeAll_put l outputRelations [] [("output_type", [.str "unknown_word"]), ("output_unknown_word", [.str (String.ofList part)])] s.world
  rw [hx] at hst hrep
  replace hrep : Represents (l.get (l.put x s.world)) (log ++ [⟨"output_type", ["type"], [.str "unknown_word"]⟩,
    ⟨"output_unknown_word", ["word"], [.str (String.ofList part)]⟩]) := hrep
  have hlog : BufferOk (log ++ [⟨"output_type", ["type"], [.str "unknown_word"]⟩, ⟨"output_unknown_word", ["word"], [.str (String.ofList part)]⟩]) := by
    intro r hr
    have hpl : ∀ t, Plain (.str t) := fun t => ⟨by simp, rfl, rfl⟩
    simp only [List.mem_append, List.mem_cons, List.not_mem_nil, or_false] at hr
    rcases hr with hr | rfl | rfl
    · exact hlog0 r hr
    · exact ⟨⟨rfl, show ["type"].Nodup by decide, rfl, by simp⟩, by simp [hpl]⟩
    · exact ⟨⟨rfl, show ["word"].Nodup by decide, rfl, by simp⟩, by simp [hpl]⟩
  unfold turn
  rw [enter_error hp]
  rw [show reportQuery (.unknownWord part) = storeQuery [("output_type", [.str "unknown_word"]), ("output_unknown_word", [.str (String.ofList part)])] from rfl,
    hst]
  dsimp only
  rw [generateOutput_inSession]
  simp only [inWorld]
  rcases C72_message (hm.put _) uni H hg hrep hlog (k + 1) n with ⟨v, hv, hgen⟩ | ⟨hv, _⟩
  · refine ⟨v, hv, ?_⟩
    rw [hgen]
    simp only [l.put_put]
  · exfalso
    generalize hlg : log ++ [⟨"output_type", ["type"], [.str "unknown_word"]⟩, ⟨"output_unknown_word", ["word"], [.str (String.ofList part)]⟩] = lg at hv hlog
    have m1 : (⟨"output_type", ["type"], [.str "unknown_word"]⟩ : LogRecord) ∈ lg := by rw [← hlg]; simp
    have m2 : (⟨"output_unknown_word", ["word"], [.str (String.ofList part)]⟩ : LogRecord) ∈ lg := by rw [← hlg]; simp
    by_cases c1 : IsStored lg "output_type" [.str "not_understood"]
    · exact hv _ (.notUnderstood c1)
    by_cases c2 : IsStored lg "output_type" [.str "no_sentence"]
    · exact hv _ (.noSentence c1 c2)
    cases hf : lg.find? fun r => decide (r.table = "output_unknown_word") with
    | none => have := List.find?_eq_none.1 hf _ m2; simp at this
    | some r =>
      have ht := List.find?_some hf
      have hr := List.mem_of_find?_eq_some hf
      simp only [decide_eq_true_eq] at ht
      have hc := (hlog r hr).1.columns
      rw [ht] at hc
      have : r.columns = ["word"] := (Option.some.inj (hc.symm.trans (by decide +kernel)))
      have hlen := (hlog r hr).1.length
      rw [this] at hlen
      match hvs : r.values, hlen with
      | [v], _ => exact hv _ (.unknown c1 c2 ⟨_, m1, rfl, rfl⟩ (v := v) (by simp [firstStored, hf, hvs]))

/-- **C72** (partial: only if there is text that can not be read) A text without a derivation, some of which can not be read from the left with the grammar,
is answered with the first nine characters of the part that can not be read. The session is as before, except that the text has been parsed. -/
theorem C72_unknown_word_partial (hlt : K < (normalizeSpace text).length) :
    ∃ N, ∀ fuel depth, N ≤ fuel → N ≤ depth → ∀ optimizer fuel' depth' texts (s : Session W) k n,
      StoresIn ms l outputRelations s.world → s.grammar = parseHistory E fuel' depth' (Grammar.new rules) texts → l.get s.world = SimpleStore.clear →
      turn (solverAt (modelOf ms) (k + 2)).inSession (sentencePipeline E fuel depth optimizer (solverAt (modelOf ms) (k + 2))) g l.inSession (n + 1)
        text s =
      .ok { s with grammar := parseHistory E fuel' depth' (Grammar.new rules) (texts ++ [normalizeSpace text]) }
        (.str ("Could not understand: " ++ String.ofList (((normalizeSpace text).drop K).take 9 ++ [' ', '.', '.', '.']))) := by
  obtain ⟨N, hN⟩ := turn_unreadable uni H hg E rules ok names wf text hl hno hK hlt
  refine ⟨N, fun fuel depth h1 h2 optimizer fuel' depth' texts s k n hm hgr hw => ?_⟩
  obtain ⟨v, hv, ht⟩ := hN fuel depth h1 h2 optimizer fuel' depth' texts s [] k n hm hgr (by intro t; simp [hw, SimpleStore.clear])
    (by intro r hr; simp at hr)
  generalize ((normalizeSpace text).drop K).take 9 ++ [' ', '.', '.', '.'] = part at hv ⊢
  rw [ht, ← hw, l.put_get]
  cases hv with
  | notUnderstood h => simp [IsStored] at h
  | noSentence _ h => simp [IsStored] at h
  | unknown _ _ _ h =>
    simp [firstStored] at h
    subst h
    rfl

/-- **C72** Limit: when all of the text can be read, but it is no sentence, the turn raises: the relations `output_not_understood` and
`output_no_sentence` do not exist. The type of the error stays in the buffer, and only reading the output once more, after the exception, gives the
message and empties the buffer. -/
theorem C72_not_understood_raises (heq : K = (normalizeSpace text).length) :
    ∃ N, ∀ fuel depth, N ≤ fuel → N ≤ depth → ∀ optimizer fuel' depth' texts (s : Session W) k n,
      StoresIn ms l outputRelations s.world → s.grammar = parseHistory E fuel' depth' (Grammar.new rules) texts → l.get s.world = SimpleStore.clear →
      (∀ x p, p = "output_not_understood" ∨ p = "output_no_sentence" → findRelations (modelOf ms) (l.put x s.world) p = []) →
      ∃ s', turn (solverAt (modelOf ms) (k + 2)).inSession (sentencePipeline E fuel depth optimizer (solverAt (modelOf ms) (k + 2))) g l.inSession
          (n + 1) text s = .err s' (.exception "No relation available in the model") ∧
        s'.grammar = parseHistory E fuel' depth' (Grammar.new rules) (texts ++ [normalizeSpace text]) ∧
        l.get s'.world = SimpleStore.clear.insert "output_type" ["type"] [.str (if normalizeSpace text = [] then "no_sentence" else "not_understood")] ∧
        generateOutput (solverAt (modelOf ms) (k + 2)).inSession g l.inSession (n + 1) s' =
          .ok { s with grammar := parseHistory E fuel' depth' (Grammar.new rules) (texts ++ [normalizeSpace text]) }
            (.str (if normalizeSpace text = [] then "No sentence given" else "Sorry, I don't understand")) := by
  obtain ⟨N, hN⟩ := parse_no_derivation E rules ok names wf text hl hno
  refine ⟨N, fun fuel depth h1 h2 optimizer fuel' depth' texts s k n hm hgr hw hnd => ?_⟩
  obtain ⟨K', e, hK', he, hp⟩ := hN fuel depth h1 h2 fuel' depth' texts
  obtain rfl := longestRead_unique hK hK'
  rw [if_neg (by omega)] at he
  rw [← hgr] at hp
  have hnd' : ∀ x, findRelations (modelOf ms) (l.put x s.world) ("output_" ++ e.type) = [] := by
    intro x
    apply hnd
    rw [he]
    split
    · exact .inr rfl
    · exact .inl rfl
  have hargs : e.args = [] := by rw [he]; split <;> rfl
  have hr := report_unregistered hm (args' := e.args) hnd' k
  refine ⟨⟨parseHistory E fuel' depth' (Grammar.new rules) (texts ++ [normalizeSpace text]), s.gen,
    l.put ((l.get s.world).insert "output_type" ["type"] [.str e.type]) s.world⟩, ?_, rfl, ?_, ?_⟩
  · unfold turn
    rw [enter_error hp]
    rw [show (solverAt (modelOf ms) (k + 2)).solve (reportQuery e) [] s.world = _ from hr]
  · dsimp only
    rw [l.get_put, hw, he]
    split <;> rfl
  rw [generateOutput_inSession]
  simp only [inWorld]
  have hrep := represents_step (s := l.get s.world) (log := []) (by intro t; simp [hw, SimpleStore.clear]) (.insert "output_type" ["type"] [.str e.type])
  rw [← l.get_put (StoreOp.run _ _) s.world] at hrep
  have hlog : BufferOk (logStep [] (.insert "output_type" ["type"] [.str e.type])) := by
    intro r hr
    simp only [logStep, List.nil_append, List.mem_singleton] at hr
    subst hr
    exact ⟨⟨rfl, show ["type"].Nodup by decide, rfl, by simp⟩, by simp [Plain, Value.isVar, legal]⟩
  have hback : l.put SimpleStore.clear s.world = s.world := by rw [← hw, l.put_get]
  rcases C72_message (hm.put _) uni H hg hrep hlog (k + 1) n with ⟨v, hv, hgen⟩ | ⟨hv, _⟩
  · simp only [StoreOp.run] at hgen
    rw [hgen]
    simp only [l.put_put, hback]
    by_cases hempty : normalizeSpace text = []
    · rw [if_pos hempty] at he ⊢
      subst he
      cases hv with
      | notUnderstood h => simp [IsStored, logStep, ParseError.type] at h
      | noSentence _ h => rfl
      | unknown _ _ h _ => simp [IsStored, logStep, ParseError.type] at h
    · rw [if_neg hempty] at he ⊢
      subst he
      cases hv with
      | notUnderstood h => rfl
      | noSentence _ h => simp [IsStored, logStep, ParseError.type] at h
      | unknown _ _ h _ => simp [IsStored, logStep, ParseError.type] at h
  · exfalso
    by_cases hempty : normalizeSpace text = []
    · rw [if_pos hempty] at he
      subst he
      exact hv _ (.noSentence (by simp [IsStored, logStep, ParseError.type]) (by simp [IsStored, logStep, ParseError.type]))
    · rw [if_neg hempty] at he
      subst he
      exact hv _ (.notUnderstood (by simp [IsStored, logStep, ParseError.type]))

/-- **C73** Limit: after a turn that raised an exception because it was not understood, the type of the error is still in the buffer. The next text that
can not be read is then answered with the message for the earlier one. -/
theorem C73_stale_buffer (hlt : K < (normalizeSpace text).length) :
    ∃ N, ∀ fuel depth, N ≤ fuel → N ≤ depth → ∀ optimizer fuel' depth' texts (s : Session W) k n,
      StoresIn ms l outputRelations s.world → s.grammar = parseHistory E fuel' depth' (Grammar.new rules) texts →
      l.get s.world = SimpleStore.clear.insert "output_type" ["type"] [.str "not_understood"] →
      turn (solverAt (modelOf ms) (k + 2)).inSession (sentencePipeline E fuel depth optimizer (solverAt (modelOf ms) (k + 2))) g l.inSession (n + 1)
        text s =
      .ok { s with grammar := parseHistory E fuel' depth' (Grammar.new rules) (texts ++ [normalizeSpace text]), world := l.put SimpleStore.clear s.world }
        (.str "Sorry, I don't understand") := by
  obtain ⟨N, hN⟩ := turn_unreadable uni H hg E rules ok names wf text hl hno hK hlt
  refine ⟨N, fun fuel depth h1 h2 optimizer fuel' depth' texts s k n hm hgr hw => ?_⟩
  have hrep := represents_step (s := SimpleStore.clear) (log := []) (by intro t; simp [SimpleStore.clear]) (.insert "output_type" ["type"] [.str "not_understood"])
  obtain ⟨v, hv, ht⟩ := hN fuel depth h1 h2 optimizer fuel' depth' texts s [⟨"output_type", ["type"], [.str "not_understood"]⟩] k n hm hgr
    (by rw [hw]; exact hrep)
    (by
      intro r hr
      simp only [List.mem_singleton] at hr
      subst hr
      exact ⟨⟨rfl, show ["type"].Nodup by decide, rfl, by simp⟩, by simp [Plain, Value.isVar, legal]⟩)
  rw [ht]
  cases hv with
  | notUnderstood h => rfl
  | noSentence h _ => simp [IsStored] at h
  | unknown h _ _ _ => simp [IsStored] at h

end

/-! ## C73: dialogs -/

section
variable {P : Type} (api : SolverApi W) (blocks : List (Block P W)) (g : Grammar WriteSem) (l : Lens W SimpleStore) (n : Nat)

/-- **C73** After each turn that ends without exception the output buffer is empty. -/
theorem C73_buffer_empty {text : Str} {w w' : W} {v : Value} (h : turn api blocks g l n text w = .ok w' v) : l.get w' = SimpleStore.clear := by
  unfold turn at h
  cases he : enter api blocks (Request.new text, w) with
  | err s e => simp [he] at h
  | oof => simp [he] at h
  | ok s r =>
    simp only [he] at h
    rw [generateOutput] at h
    obtain ⟨w1, r1, _, h⟩ := M.bind_eq_ok.1 h
    rw [clearBuffer, M.bind_ok (M.modify_run _ w1)] at h
    obtain ⟨rfl, _⟩ := M.pure_eq_ok.1 h
    exact l.get_put _ _

/-- The outcomes of the turns, one after the other (specification). -/
inductive Plays : W → List (Str × Value) → W → Prop
  | done (w : W) : Plays w [] w
  | turn {w w1 w2 : W} {text : Str} {v : Value} {rest : List (Str × Value)} (h : turn api blocks g l n text w = .ok w1 v) (hr : Plays w1 rest w2) :
      Plays w ((text, v) :: rest) w2

/-- **C73** A dialog test passes exactly when every output is the expected one. -/
theorem C73_passes {tests : List (Str × Value)} {w w' : W} :
    doRun api blocks g l n tests w = .ok w' () ↔ Plays api blocks g l n w tests w' := by
  induction tests generalizing w with
  | nil =>
    constructor
    · intro h; obtain ⟨rfl, _⟩ := M.pure_eq_ok.1 h; exact .done _
    · intro h; cases h; rfl
  | cons t tests ih =>
    obtain ⟨q, x⟩ := t
    rw [doRun, M.bind_eq_ok]
    constructor
    · rintro ⟨w1, v, h1, h2⟩
      split at h2
      · rename_i hx; subst hx; exact .turn h1 (ih.1 h2)
      · simp [M.throw_run] at h2
    · intro h
      cases h with
      | turn h1 hr => exact ⟨_, _, h1, by rw [if_pos rfl]; exact ih.2 hr⟩

/-- **C73** A dialog test raises exactly when, after some passing turns, a turn raises that exception or gives another output than the expected one. -/
theorem C73_fails {tests : List (Str × Value)} {w w' : W} {e : Err} :
    doRun api blocks g l n tests w = .err w' e ↔
      ∃ before text x after w1, tests = before ++ (text, x) :: after ∧ Plays api blocks g l n w before w1 ∧
        (turn api blocks g l n text w1 = .err w' e ∨ ∃ v, turn api blocks g l n text w1 = .ok w' v ∧ v ≠ x ∧ e = .exception "AssertionError") := by
  induction tests generalizing w with
  | nil =>
    constructor
    · intro h; simp [doRun] at h
    · rintro ⟨before, _, _, _, _, h, _⟩; simp at h
  | cons t tests ih =>
    obtain ⟨q, x⟩ := t
    rw [doRun, M.bind_run]
    cases ht : turn api blocks g l n q w with
    | oof =>
      constructor
      · intro h; simp at h
      · rintro ⟨before, text, y, after, w1, h, hp, hc⟩
        cases hp with
        | done =>
          simp only [List.nil_append, List.cons.injEq, Prod.mk.injEq] at h
          obtain ⟨⟨rfl, rfl⟩, rfl⟩ := h
          rw [ht] at hc; simp at hc
        | turn h1 _ =>
          simp only [List.cons_append, List.cons.injEq, Prod.mk.injEq] at h
          obtain ⟨⟨rfl, rfl⟩, rfl⟩ := h
          rw [ht] at h1; simp at h1
    | err w1 e1 =>
      constructor
      · intro h
        simp only [Res.err.injEq] at h
        obtain ⟨rfl, rfl⟩ := h
        exact ⟨[], q, x, tests, w, rfl, .done _, .inl ht⟩
      · rintro ⟨before, text, y, after, w1, h, hp, hc⟩
        cases hp with
        | done =>
          simp only [List.nil_append, List.cons.injEq, Prod.mk.injEq] at h
          obtain ⟨⟨rfl, rfl⟩, rfl⟩ := h
          rw [ht] at hc; simpa using hc
        | turn h1 _ =>
          simp only [List.cons_append, List.cons.injEq, Prod.mk.injEq] at h
          obtain ⟨⟨rfl, rfl⟩, rfl⟩ := h
          rw [ht] at h1; simp at h1
    | ok w1 v =>
      dsimp only
      constructor
      · intro h
        split at h
        · rename_i hx
          subst hx
          obtain ⟨before, text, y, after, w2, h1, h2, h3⟩ := ih.1 h
          exact ⟨(q, v) :: before, text, y, after, w2, by rw [h1]; rfl, .turn ht h2, h3⟩
        · rename_i hx
          simp only [M.throw_run, Res.err.injEq] at h
          obtain ⟨rfl, rfl⟩ := h
          exact ⟨[], q, x, tests, w, rfl, .done _, .inr ⟨v, ht, hx, rfl⟩⟩
      · rintro ⟨before, text, y, after, w2, h, hp, hc⟩
        cases hp with
        | done =>
          simp only [List.nil_append, List.cons.injEq, Prod.mk.injEq] at h
          obtain ⟨⟨rfl, rfl⟩, rfl⟩ := h
          rw [ht] at hc
          rcases hc with hc | ⟨v', hc, hne, rfl⟩
          · simp at hc
          · simp only [Res.ok.injEq] at hc
            obtain ⟨rfl, rfl⟩ := hc
            rw [if_neg hne]; rfl
        | turn h1 hr =>
          simp only [List.cons_append, List.cons.injEq, Prod.mk.injEq] at h
          obtain ⟨⟨rfl, rfl⟩, rfl⟩ := h
          rw [ht] at h1
          simp only [Res.ok.injEq] at h1
          obtain ⟨rfl, rfl⟩ := h1
          rw [if_pos rfl]
          exact ih.2 ⟨_, text, y, after, w2, rfl, hr, hc⟩

end

section
variable {ms : List (Module W)} {l : Lens W SimpleStore} (uni : Char → Bool)
  (H : Constituent → List Constituent → Nat) {g : Grammar WriteSem} (hg : parseWriteGrammar uni H enUsWrite = .ok g)
  (E : Oracles) (rules : List (GRule Attachment)) (ok : RulesOk rules) (names : NamesOk rules) (wf : WellFounded (UnitStep rules))

/-- The text has no derivation and a part of it, after `K` characters, can not be read (specification). -/
structure Unreadable (text : Str) (K : Nat) : Prop where
  lower : LowerOk E (normalizeSpace text)
  no : ∀ d, ¬ WholeDerivation E rules (normalizeSpace text) d
  longest : LongestRead E rules (normalizeSpace text) K
  part : K < (normalizeSpace text).length

include hg ok names wf in
/-- **C73** In a dialog of texts that can not be read, of any length, each is answered with its own message: nothing of the earlier turns is left. -/
theorem C73_unreadable_dialog (turns : List (Str × Nat)) (hu : ∀ t ∈ turns, Unreadable E rules t.1 t.2) :
    ∃ N, ∀ fuel depth, N ≤ fuel → N ≤ depth → ∀ optimizer fuel' depth' texts (s : Session W) k n,
      StoresIn ms l outputRelations s.world → s.grammar = parseHistory E fuel' depth' (Grammar.new rules) texts → l.get s.world = SimpleStore.clear →
      doRun (solverAt (modelOf ms) (k + 2)).inSession (sentencePipeline E fuel depth optimizer (solverAt (modelOf ms) (k + 2))) g l.inSession (n + 1)
        (turns.map fun t => (t.1, .str ("Could not understand: " ++
          String.ofList (((normalizeSpace t.1).drop t.2).take 9 ++ [' ', '.', '.', '.'])))) s =
      .ok { s with grammar := parseHistory E fuel' depth' (Grammar.new rules) (texts ++ turns.map fun t => normalizeSpace t.1) } () := by
  induction turns with
  | nil =>
    refine ⟨0, fun fuel depth _ _ optimizer fuel' depth' texts s k n _ hgr _ => ?_⟩
    simp only [List.map_nil, List.append_nil, doRun, ← hgr]
    rfl
  | cons t turns ih =>
    obtain ⟨N1, h1⟩ := ih fun t ht => hu t (List.mem_cons_of_mem _ ht)
    have ht := hu t List.mem_cons_self
    obtain ⟨N2, h2⟩ := C72_unknown_word_partial (l := l) (ms := ms) uni H hg E rules ok names wf t.1 ht.lower ht.no ht.longest ht.part
    refine ⟨max N1 N2, fun fuel depth hf hd optimizer fuel' depth' texts s k n hm hgr hw => ?_⟩
    have a1 : N1 ≤ fuel := by omega
    have a2 : N1 ≤ depth := by omega
    have a3 : N2 ≤ fuel := by omega
    have a4 : N2 ≤ depth := by omega
    rw [List.map_cons, doRun, M.bind_ok (h2 fuel depth a3 a4 optimizer fuel' depth' texts s k n hm hgr hw), if_pos rfl,
      h1 fuel depth a1 a2 optimizer fuel' depth' (texts ++ [normalizeSpace t.1])
        ⟨parseHistory E fuel' depth' (Grammar.new rules) (texts ++ [normalizeSpace t.1]), s.gen, s.world⟩ k n hm rfl hw]
    simp

end

/-! ## Examples -/

open Ex

theorem who_names : NamesOk whoRules := by
  have hocc : ∀ c, Occurs whoRules c → c = whoS ∨ c = whoP 'A' ∨ c = whoP 'B' ∨ c = exW ['w', 'h', 'o', ' '] ∨ c = exW ['k', 'i', 'd', ' '] ∨
      c = exW ['h', 'e', 'i', 'r', ' '] ∨ c = exRegexp ['x'] := by
    rintro c ⟨r, hr, hc⟩
    have hall : ∀ r ∈ whoRules, ∀ c ∈ r.ante :: r.cons, c ∈ [whoS, whoP 'A', whoP 'B', exW ['w', 'h', 'o', ' '], exW ['k', 'i', 'd', ' '],
      exW ['h', 'e', 'i', 'r', ' '], exRegexp ['x']] := by
        intro r hr
        simp only [whoRules, List.mem_cons, List.not_mem_nil, or_false] at hr
        rcases hr with rfl | rfl | rfl <;> decide
    have := hall r hr c (by rcases hc with rfl | hc <;> simp [*])
    simpa using this
  constructor
  · intro x y hx hy hp hq
    rcases hocc x hx with rfl | rfl | rfl | rfl | rfl | rfl | rfl <;> rcases hocc y hy with rfl | rfl | rfl | rfl | rfl | rfl | rfl <;>
      first | rfl | (revert hp hq; decide)
  · intro c hc hp
    rcases hocc c hc with rfl | rfl | rfl | rfl | rfl | rfl | rfl
    · exact absurd rfl hp
    · exact absurd rfl hp
    · exact absurd rfl hp
    all_goals
      refine ⟨fun r hr => ?_, by decide⟩
      simp only [whoRules, List.mem_cons, List.not_mem_nil, or_false] at hr
      rcases hr with rfl | rfl | rfl <;> decide

theorem who_unit : WellFounded (UnitStep whoRules) := by
  refine unit_wf (fun _ => 0) fun r hr v hv c hc => ?_
  rcases who_usable ⟨r, hr, hv⟩ with rfl | rfl | rfl <;> revert hc <;> simp [whoRule, kidRule, heirRule, GRule.new]

/-- What the parser finds out is so. -/
theorem no_derivation_of_parse {E : Oracles} {rules : List (GRule Attachment)} (ok : RulesOk rules) (names : NamesOk rules) {text : Str}
    (hl : LowerOk E text) {fuel depth : Nat} {e : ParseError} (h : (parse E fuel depth (Grammar.new rules) text).1 = .ok ([], e)) :
    (∀ d, ¬ WholeDerivation E rules text d) ∧ ∃ K, LongestRead E rules text K ∧
      e = if K < text.length then .unknownWord ((text.drop K).take 9 ++ [' ', '.', '.', '.'])
          else if text = [] then .noSentence else .notUnderstood := by
  refine ⟨fun d => ?_, ?_⟩
  · rintro ⟨c, hc, hp, hd⟩
    obtain ⟨t, ht, _⟩ := C30_complete E rules ok text hl fuel depth [] e h c hc hp d hd
    simp at ht
  · obtain ⟨K, k1, k2, k3⟩ := (C34_error E rules ok names text hl fuel depth [] e h).2 rfl
    exact ⟨K, ⟨k1, k2⟩, k3⟩

/-- `who dog bob`. -/
def whoDog : Str := ['w', 'h', 'o', ' ', 'd', 'o', 'g', ' ', 'b', 'o', 'b']

/-- `what`. -/
def what : Str := ['w', 'h', 'a', 't']

theorem who_lower (text : Str) : LowerOk whoOracles text := fun _ => rfl

/-- The texts can not be read after `who ` and at the start. -/
theorem unreadable_examples : Unreadable whoOracles whoRules whoDog 4 ∧ Unreadable whoOracles whoRules what 0 := by
  have key : ∀ (text : Str) (k : Nat) (part : Str), normalizeSpace text = text → k < text.length →
      (parse whoOracles 100 100 (Grammar.new whoRules) text).1.bind (fun r => .ok (r.1.length, r.2)) = .ok (0, .unknownWord part) →
      (∀ k', k' ≤ text.length → part = ((text.drop k').take 9 ++ [' ', '.', '.', '.']) → k' = k) → Unreadable whoOracles whoRules text k := by
    intro text k part hn hk hp hu
    cases hr : (parse whoOracles 100 100 (Grammar.new whoRules) text).1 with
    | err e => rw [hr] at hp; simp [Out.bind] at hp
    | oof => rw [hr] at hp; simp [Out.bind] at hp
    | ok r =>
      obtain ⟨trees, e⟩ := r
      rw [hr] at hp
      simp only [Out.bind, Out.ok.injEq, Prod.mk.injEq, List.length_eq_zero_iff] at hp
      obtain ⟨rfl, rfl⟩ := hp
      obtain ⟨hno, K, hK, he⟩ := no_derivation_of_parse who_ok who_names (who_lower _) hr
      have : K = k := by
        split at he
        · simp only [ParseError.unknownWord.injEq] at he
          exact hu K (by omega) he
        · split at he <;> cases he
      subst this
      exact ⟨who_lower _, by rw [hn]; exact hno, by rw [hn]; exact hK, by rw [hn]; exact hk⟩
  exact ⟨key whoDog 4 ['d', 'o', 'g', ' ', 'b', 'o', 'b', ' ', '.', '.', '.'] (by decide) (by decide) (by decide +kernel) (by decide),
    key what 0 ['w', 'h', 'a', 't', ' ', '.', '.', '.'] (by decide) (by decide) (by decide +kernel) (by decide)⟩

/-- The hypotheses of `C72_unknown_word_partial`, `C73_stale_buffer` and `C73_unreadable_dialog` hold of a dialog. -/
example : (∀ w, StoresIn bufferMods (Lens.id _) outputRelations w) ∧ RulesOk whoRules ∧ NamesOk whoRules ∧ WellFounded (UnitStep whoRules) ∧
    ∀ t ∈ [(whoDog, 4), (what, 0), (whoDog, 4)], Unreadable whoOracles whoRules t.1 t.2 := by
  refine ⟨bufferMods_storesIn, who_ok, who_names, who_unit, fun t ht => ?_⟩
  simp only [List.mem_cons, List.not_mem_nil, or_false] at ht
  rcases ht with rfl | rfl | rfl
  · exact unreadable_examples.1
  · exact unreadable_examples.2
  · exact unreadable_examples.1

/-- The grammar `s(A) -> 'a' 'b'`. -/
def abRules : List (GRule Attachment) := [GRule.new whoOracles.ruleHash whoS [exW ['a'], exW ['b']] .none]

theorem ab_ok : RulesOk abRules ∧ NamesOk abRules ∧ WellFounded (UnitStep abRules) := by
  have hmem : ∀ r ∈ abRules, r.ante = whoS ∧ r.cons = [exW ['a'], exW ['b']] := by
    intro r hr; simp only [abRules, List.mem_singleton] at hr; subst hr; exact ⟨rfl, rfl⟩
  have hocc : ∀ c, Occurs abRules c → c = whoS ∨ c = exW ['a'] ∨ c = exW ['b'] := by
    rintro c ⟨r, hr, hc⟩
    rw [(hmem r hr).1, (hmem r hr).2] at hc
    simpa using hc
  refine ⟨by constructor <;> decide +kernel, ⟨?_, ?_⟩, ?_⟩
  · intro x y hx hy hp hq
    rcases hocc x hx with rfl | rfl | rfl <;> rcases hocc y hy with rfl | rfl | rfl <;> first | rfl | (revert hp hq; decide)
  · intro c hc hp
    rcases hocc c hc with rfl | rfl | rfl
    · exact absurd rfl hp
    all_goals
      refine ⟨fun r hr => ?_, by decide⟩
      rw [(hmem r hr).1]; decide
  · refine unit_wf (fun _ => 0) fun r hr v hv c hc => ?_
    have : v.cons = [exW ['a'], exW ['b']] := by
      rw [C36_no_optional r (by rw [(hmem r hr).2]; decide), List.mem_singleton] at hv
      subst hv; exact (hmem _ hr).2
    rw [this] at hc; simp at hc

/-- The hypotheses of `C72_not_understood_raises` hold of the text `a` and that grammar: it can be read as a whole, but nothing follows. -/
example : (∀ w p, p = "output_not_understood" ∨ p = "output_no_sentence" → findRelations (modelOf bufferMods) w p = []) ∧
    (∀ d, ¬ WholeDerivation whoOracles abRules (normalizeSpace ['a']) d) ∧
    LongestRead whoOracles abRules (normalizeSpace ['a']) (normalizeSpace ['a']).length := by
  refine ⟨fun w p hp => by rcases hp with rfl | rfl <;> rfl, ?_⟩
  rw [show normalizeSpace ['a'] = ['a'] by decide]
  have hp : (parse whoOracles 100 100 (Grammar.new abRules) ['a']).1.bind (fun r => .ok (r.1.length, r.2)) = .ok (0, .notUnderstood) := by decide +kernel
  cases hr : (parse whoOracles 100 100 (Grammar.new abRules) ['a']).1 with
  | err e => rw [hr] at hp; simp [Out.bind] at hp
  | oof => rw [hr] at hp; simp [Out.bind] at hp
  | ok r =>
    obtain ⟨trees, e⟩ := r
    rw [hr] at hp
    simp only [Out.bind, Out.ok.injEq, Prod.mk.injEq, List.length_eq_zero_iff] at hp
    obtain ⟨rfl, rfl⟩ := hp
    obtain ⟨hno, K, hK, he⟩ := no_derivation_of_parse ab_ok.1 ab_ok.2.1 (who_lower _) hr
    refine ⟨hno, ?_⟩
    split at he
    · cases he
    · have : K ≤ ['a'].length := by
        rcases hK.1 with h | ⟨_, _, _, _, _, h⟩
        · omega
        · exact h.2.1
      have : K = ['a'].length := by omega
      rw [← this]; exact hK

/-- A buffer with two reports. -/
example : BufferOk [⟨"output_type", ["type"], [.str "unknown_word"]⟩, ⟨"output_unknown_word", ["word"], [.str "dog"]⟩] ∧
    Message [⟨"output_type", ["type"], [.str "unknown_word"]⟩, ⟨"output_unknown_word", ["word"], [.str "dog"]⟩] (.str "Could not understand: dog") := by
  refine ⟨fun r hr => ?_, ?_⟩
  · simp only [List.mem_cons, List.not_mem_nil, or_false] at hr
    rcases hr with rfl | rfl
    · exact ⟨⟨rfl, show ["type"].Nodup by decide, rfl, by simp⟩, by simp [Plain, Value.isVar, legal]⟩
    · exact ⟨⟨rfl, show ["word"].Nodup by decide, rfl, by simp⟩, by simp [Plain, Value.isVar, legal]⟩
  · exact .unknown (v := .str "dog") (by simp [IsStored]) (by simp [IsStored]) (by simp [IsStored]) rfl

end Verif

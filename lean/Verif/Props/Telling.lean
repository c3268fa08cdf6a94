import Verif.Props.Teaching

/-!
# C107: sentences that tell facts
-/

namespace Verif

variable {W : Type}

/-! ## Specification -/

/-- `sentence_tell(Atoms) :- store(Atoms), store(output_type('ok')).` (`tests/integration/cooper/inferences.pl:4`) -/
def tellIntent : Rule :=
  ⟨[.str "sentence_tell", .var "Atoms"],
   .list [.tuple [.str "store", .var "Atoms"], .tuple [.str "store", .list [.tuple [.str "output_type", .str "ok"]]]]⟩

/-- A sentence that tells facts: the variables with a given value, and the atoms (`tests/integration/cooper/read_grammar1.py:17-25`). -/
structure Telling where
  given : List (String × Value)
  facts : Query

/-- Its meaning: `let(T1, 'true'), sentence_tell(atoms)`. -/
def Telling.meaning (t : Telling) : Value :=
  .list (t.given.map (fun g => .tuple [.str "let", .var g.1, g.2]) ++ [.tuple [.str "sentence_tell", toQuery t.facts]])

/-- The facts with the given values filled in (specification). -/
def Telling.told (t : Telling) : Query := t.facts.map fun a => (a.1, a.2.map (fillVar t.given))

/-- The sentence tells something sensible: a value is given once for each variable, and is no variable; no variable is called `Atoms`; with the given
values filled in, the facts have proper values for all columns (specification). -/
structure Telling.Ok (rels : Dict (List String)) (t : Telling) : Prop where
  once : (t.given.map Prod.fst).Nodup
  values : ∀ g ∈ t.given, g.2.isVar = false
  names : ∀ g ∈ t.given, g.1 ≠ "Atoms"
  facts : ∀ a ∈ t.facts, ∃ cs, rels.get a.1 = some cs ∧ a.2.length = cs.length ∧ ∀ v ∈ a.2, FlatValue v ∧ Plain (fillVar t.given v)

/-- The predicate is one of those that are used to tell and to reply. -/
def Taken (p : String) : Prop := p = "let" ∨ p = "sentence_tell" ∨ p = "store" ∨ outputRelations.has p = true

/-- Tables, a memory module for what is told, an inference module, and an output buffer. -/
def tellModules (li : Lens W InfState) (l lf : Lens W SimpleStore) (rels : Dict (List String)) (tables : List (Dict (List (List Value)))) : List (Module W) :=
  (tables.map (tableModule W) ++ [memoryModule lf rels]) ++ inferenceModule li :: [outputBuffer l]

/-- The parts of the system have nothing to do with each other, and none is about telling and replying. What is told may be about predicates that have
rows in tables or rules as well. -/
structure TellSystem (li : Lens W InfState) (l lf : Lens W SimpleStore) (rels : Dict (List String)) (tables : List (Dict (List (List Value))))
    (rs : List HornRule) (ar : String → Option Nat) : Prop where
  apart : ∀ w u f, l.put u (lf.put f w) = lf.put f (l.put u w)
  keepL : ∀ w u, li.get (l.put u w) = li.get w
  keepF : ∀ w f, li.get (lf.put f w) = li.get w
  reserved : NotReserved W rels
  columns : ∀ p cs, rels.get p = some cs → cs.Nodup
  free : ∀ p, Taken p → rels.get p = none ∧ (∀ db ∈ tables, db.get p = none) ∧ (∀ r ∈ rs, r.pred ≠ p) ∧ ar p = none
  ok : ProgramOk W ar (tables ++ [memoryDb rels []]) rs
  arity : ∀ p k cs, rels.get p = some cs → ar p = some k → cs.length = k

/-- A turn of a session: a sentence that tells facts, or a question. -/
inductive TellTurn where
  | tell (t : Telling)
  | ask (q : Query) (b : Binding)

/-- The turns one after the other. For a sentence that tells facts, the meaning is solved and a reply is generated. -/
def runTells (solver : SolverApi W) (wg : Grammar WriteSem) (l : Lens W SimpleStore) (m : Nat) : List TellTurn → M W (List TurnOut)
  | [] => pure []
  | .tell t :: ts => do
    let _ ← solver.solve t.meaning []
    let reply ← generateOutput solver wg l m
    let outs ← runTells solver wg l m ts
    pure (.reply reply :: outs)
  | .ask q b :: ts => do
    let o ← solver.solve (toQuery q) b
    let outs ← runTells solver wg l m ts
    pure (.answers o :: outs)

/-- Everything that is told (specification). -/
def toldIn : List TellTurn → Query
  | [] => []
  | .tell t :: ts => t.told ++ toldIn ts
  | .ask _ _ :: ts => toldIn ts

/-- The program of the rows of some tables, the known facts, and the rules (specification). -/
def toldProgram (tables : List (Dict (List (List Value)))) (known : Query) (rs : List HornRule) : Program where
  facts p row := (∃ db ∈ tables, ∃ rows, db.get p = some rows ∧ row ∈ rows) ∨ (p, row) ∈ known
  rules p hargs body := { pred := p, args := hargs, body := body } ∈ rs

/-- What the turns give is right (specification): a sentence that tells facts gets the text as reply, and a question exactly the answers that follow from
the tables, the rules, and what was told before; each once. -/
def RightTells (tables : List (Dict (List (List Value)))) (rs : List HornRule) (text : String) : Query → List TellTurn → List TurnOut → Prop
  | _, [], [] => True
  | known, .tell t :: ts, .reply v :: os => v = .str text ∧ RightTells tables rs text (known ++ t.told) ts os
  | known, .ask q b :: ts, .answers (.rows bs) :: os =>
    SoundB (toldProgram tables known rs) q b bs ∧ NoDup bs ∧ (HeadsBound rs → CompleteB (toldProgram tables known rs) q b bs) ∧
      RightTells tables rs text known ts os
  | _, _, _ => False

/-- The turns make sense (specification). -/
def SensibleTells (rels : Dict (List String)) (ar : String → Option Nat) (ts : List TellTurn) : Prop :=
  ∀ t ∈ ts, match t with
    | .tell t => t.Ok rels
    | .ask q b => QueryOk ar q ∧ PlainB b

/-- The facts are complete: each has a proper value for every column of its relation (specification). -/
def KnownOk (rels : Dict (List String)) (known : Query) : Prop :=
  ∀ a ∈ known, ∃ cs, rels.get a.1 = some cs ∧ a.2.length = cs.length ∧ ∀ v ∈ a.2, Plain v

/-- The facts as records of a memory module (specification). -/
def recordsOf (rels : Dict (List String)) (known : Query) : List LogRecord := known.map fun a => ⟨a.1, (rels.get a.1).getD [], a.2⟩

/-! ## Storing when there are relations that can not be written -/

theorem writeRelations_none (api : SolverApi W) (args : List Value) (w : W) : ∀ rs : List (Relation W), (∀ r ∈ rs, r.write = none) →
    writeRelations api args rs w = .ok w ()
  | [], _ => rfl
  | r :: rs, h => by
    simp only [writeRelations, h r (by simp)]
    exact writeRelations_none api args w rs fun r hr => h r (List.mem_cons_of_mem _ hr)

theorem writeRelations_one (api : SolverApi W) (args : List Value) (w : W) (l : Lens W SimpleStore) (p : String) (cs : List String) (rs2 : List (Relation W))
    (h2 : ∀ r ∈ rs2, r.write = none) : ∀ rs1 : List (Relation W), (∀ r ∈ rs1, r.write = none) →
    writeRelations api args (rs1 ++ memoryRelation l p cs :: rs2) w = .ok (l.put ((l.get w).insert p cs args) w) ()
  | [], _ => by
    simp only [List.nil_append, writeRelations, memoryRelation, memoryWrite]
    rw [M.bind_ok (M.modify_run _ w)]
    exact writeRelations_none api args _ rs2 h2
  | r :: rs1, h => by
    simp only [List.cons_append, writeRelations, h r (by simp)]
    exact writeRelations_one api args w l p cs rs2 h2 rs1 fun r hr => h r (List.mem_cons_of_mem _ hr)

section
variable {li : Lens W InfState} {l lf : Lens W SimpleStore} {rels : Dict (List String)} {tables : List (Dict (List (List Value)))}
  {rs : List HornRule} {ar : String → Option Nat} (S : TellSystem li l lf rels tables rs ar)

include S in
theorem TellSystem.found {p : String} {cs : List String} (hp : rels.get p = some cs) (w : W) :
    ∃ rs1 rs2, findRelations (modelOf (tellModules li l lf rels tables)) w p = rs1 ++ memoryRelation lf p cs :: rs2 ∧
      (∀ r ∈ rs1, r.write = none) ∧ ∀ r ∈ rs2, r.write = none := by
  have hcore : (coreModule W).relations w p = none := by
    cases e : (coreTable W).get p with
    | none => simp [coreModule, e]
    | some f => have := S.reserved.2.2 p f e; rw [this] at hp; simp at hp
  have hout : outputRelations.get p = none := by
    cases e : outputRelations.get p with
    | none => rfl
    | some c =>
      have := (S.free p (.inr (.inr (.inr ((Dict.has_iff _ _).2 ⟨_, e⟩))))).1
      rw [this] at hp; simp at hp
  refine ⟨findRelations (tables.map (tableModule W)) w p, findRelations (inferenceModule li :: [outputBuffer l]) w p, ?_, ?_, ?_⟩
  · simp [modelOf, tellModules, findRelations, List.filterMap_cons, hcore, List.filterMap_append, memoryModule, hp]
  · intro r hr
    simp only [findRelations, List.mem_filterMap, List.mem_map] at hr
    obtain ⟨m, ⟨db, _, rfl⟩, hr⟩ := hr
    simp only [tableModule, Option.map_eq_some_iff] at hr
    obtain ⟨rows, _, rfl⟩ := hr
    rfl
  · intro r hr
    simp only [findRelations, List.mem_filterMap, List.mem_cons, List.not_mem_nil, or_false] at hr
    obtain ⟨m, rfl | rfl, hr⟩ := hr
    · simp only [inferenceModule, Option.map_eq_some_iff] at hr
      obtain ⟨f, _, rfl⟩ := hr
      rfl
    · simp [outputBuffer, memoryModule, hout] at hr

include S in
theorem TellSystem.storeLoop {ctx : Ctx W} {n : Nat} (hctx : ctx.solver = solverAt (modelOf (tellModules li l lf rels tables)) (n + 1)) (b : Binding) :
    ∀ {atoms : Query} (w : W), (∀ a ∈ atoms, rels.has a.1 = true) →
    storeLoop ctx (bindVarsList b (atoms.map toAtom)) w = .ok (storeAll lf rels b atoms w) ()
  | [], w, _ => rfl
  | (p, args) :: atoms, w, ha => by
    obtain ⟨cs, hcs⟩ := (Dict.has_iff _ _).1 (ha (p, args) (by simp))
    simp only [List.map_cons, bindVarsList, Verif.storeLoop, toAtom, bindVars]
    have hw : ctx.solver.writeAtom (.tuple (.str p :: bindVarsList b args)) w =
        .ok (lf.put ((lf.get w).insert p cs (args.map (bindVars b))) w) () := by
      rw [hctx]
      show writeAtom.go _ _ p _ w = _
      unfold writeAtom.go
      obtain ⟨rs1, rs2, h1, h2, h3⟩ := S.found hcs w
      have := writeRelations_one (solverAt (modelOf (tellModules li l lf rels tables)) n) (args.map (bindVars b)) w lf p cs rs2 h3 rs1 h2
      rw [M.bind_ok (M.gets_run _ w), h1, bindVarsList_eq_map]
      cases rs1 <;> exact this
    rw [M.bind_ok hw]
    rw [TellSystem.storeLoop hctx b (atoms := atoms) _ fun a ha' => ha a (List.mem_cons_of_mem _ ha')]
    simp [storeAll, hcs]


/-- The inference module has the intent, and no rules for `let`, `store` and the output. -/
structure CanTell (s : InfState) : Prop where
  intent : s.relations.get "sentence_tell" = some .handleRule
  rule : s.rules.get "sentence_tell" = some [tellIntent]
  free : ∀ p, p = "let" ∨ p = "store" ∨ outputRelations.has p = true → s.relations.get p = none

theorem canTell_inserted {s : InfState} (hrs : ∀ p, Taken p → ∀ r ∈ rs, r.pred ≠ p)
    (hins : insertAll (tellIntent :: rs.map HornRule.toRule) InfState.init = .ok s) : CanTell s := by
  have hno : ∀ p, Taken p → ¬ ∃ r ∈ rs.map HornRule.toRule, r.pred = some p := by
    rintro p hp ⟨r, hr, e⟩
    obtain ⟨r', hr', rfl⟩ := List.mem_map.1 hr
    rw [toRule_pred] at e
    exact hrs p hp r' hr' (Option.some.inj e)
  have h := fun p => insertAll_rules hins p
  have hpred : tellIntent.pred = some "sentence_tell" := rfl
  have hrel : ∀ p, Taken p → s.relations.get p = if p = "sentence_tell" then some .handleRule else InfState.init.relations.get p := by
    intro p hp
    rw [(h p).2.2]
    by_cases e : p = "sentence_tell"
    · subst e; rw [if_pos ⟨_, List.mem_cons_self, hpred⟩, if_pos rfl]
    · rw [if_neg e, if_neg]
      rintro ⟨r, hr, er⟩
      rcases List.mem_cons.1 hr with rfl | hr
      · rw [hpred] at er; exact e (Option.some.inj er).symm
      · exact hno p hp ⟨r, hr, er⟩
  have b3 : Taken "sentence_tell" := .inr (.inl rfl)
  refine ⟨hrel _ b3, ?_, fun p hp => ?_⟩
  · obtain ⟨h1, h2, _⟩ := h "sentence_tell"
    obtain ⟨x, hx⟩ := (Dict.has_iff _ _).1 (h2.2 (.inr ⟨_, List.mem_cons_self, hpred⟩))
    rw [hx] at h1 ⊢
    simp only [Option.getD_some, InfState.init, Dict.get_nil, Option.getD_none, List.nil_append] at h1
    rw [h1, List.filter_cons, if_pos (by simp [hpred]), List.filter_eq_nil_iff.2]
    intro r hr
    simpa using fun e => hno _ b3 ⟨r, hr, e⟩
  · have hb : Taken p := by
      rcases hp with rfl | rfl | hp
      · exact .inl rfl
      · exact .inr (.inr (.inl rfl))
      · exact .inr (.inr (.inr hp))
    have hne : p ≠ "sentence_tell" ∧ p ≠ "learn_rule" := by
      constructor <;> rintro rfl <;> simp [outputRelations, Dict.has, Dict.get] at hp
    rw [hrel p hb, if_neg hne.1]
    simp [InfState.init, Dict.get, hne.2.symm]

include S in
/-- Nothing but the inference module knows the predicates for telling. -/
theorem TellSystem.others {p : String} (hp : p = "let" ∨ p = "sentence_tell" ∨ p = "store") (w : W) :
    (∀ m ∈ tables.map (tableModule W) ++ [memoryModule lf rels], m.relations w p = none) ∧ (outputBuffer l).relations w p = none := by
  have ht : Taken p := by
    rcases hp with rfl | rfl | rfl
    · exact .inl rfl
    · exact .inr (.inl rfl)
    · exact .inr (.inr (.inl rfl))
  obtain ⟨h1, h2, _⟩ := S.free p ht
  refine ⟨fun m hm => ?_, ?_⟩
  · rcases List.mem_append.1 hm with hm | hm
    · obtain ⟨db, hdb, rfl⟩ := List.mem_map.1 hm
      simp [tableModule, h2 db hdb]
    · rw [List.mem_singleton.1 hm]; simp [memoryModule, h1]
  · have : outputRelations.get p = none := by rcases hp with rfl | rfl | rfl <;> decide +kernel
    simp [outputBuffer, memoryModule, this]

include S in
theorem TellSystem.notDefined {p : String} (hp : p = "let" ∨ p = "store") {w : W}
    (c : ∀ p, p = "let" ∨ p = "store" ∨ outputRelations.has p = true → (li.get w).relations.get p = none) :
    NotDefined (tellModules li l lf rels tables) w p := by
  obtain ⟨h1, h2⟩ := S.others (p := p) (by rcases hp with rfl | rfl <;> simp) w
  intro m hm
  rcases List.mem_append.1 hm with hm | hm
  · exact h1 m hm
  · simp only [List.mem_cons, List.not_mem_nil, or_false] at hm
    rcases hm with rfl | rfl
    · simp [inferenceModule, c p (by rcases hp with rfl | rfl <;> simp)]
    · exact h2

include S in
theorem TellSystem.stores {w : W} (c : ∀ p, p = "let" ∨ p = "store" ∨ outputRelations.has p = true → (li.get w).relations.get p = none) :
    StoresIn (tellModules li l lf rels tables) l outputRelations w := by
  refine ⟨fun u => S.notDefined (.inr rfl) (by rw [S.keepL]; exact c), fun u p cs hp => ?_⟩
  have hhas : outputRelations.has p = true := (Dict.has_iff _ _).2 ⟨_, hp⟩
  obtain ⟨h1, h2, _⟩ := S.free p (.inr (.inr (.inr hhas)))
  have hcore : (coreModule W).relations (l.put u w) p = none := by
    cases e : (coreTable W).get p with
    | none => simp [coreModule, e]
    | some f => have := (output_notReserved (W := W)).2.2 p f e; rw [this] at hp; simp at hp
  have hinf : (inferenceModule li).relations (l.put u w) p = none := by
    simp [inferenceModule, S.keepL, c p (.inr (.inr hhas))]
  have htab : findRelations (tables.map (tableModule W)) (l.put u w) p = [] := by
    simp only [findRelations, List.filterMap_eq_nil_iff, List.mem_map]
    rintro m ⟨db, hdb, rfl⟩
    simp [tableModule, h2 db hdb]
  simp only [findRelations] at htab
  simp [modelOf, tellModules, findRelations, hcore, List.filterMap_append, htab, hinf, memoryModule, h1, outputBuffer, hp]

include S in
/-- `store(X)` with a list of facts for `X`. -/
theorem TellSystem.storeVar {w : W} (c : ∀ p, p = "let" ∨ p = "store" ∨ outputRelations.has p = true → (li.get w).relations.get p = none) {x : String}
    {b : Binding} {facts : Query} (hget : Dict.get b x = some (toQuery facts)) (hf : ∀ a ∈ facts, rels.has a.1 = true) {n : Nat} :
    (solverAt (modelOf (tellModules li l lf rels tables)) (n + 2)).solve (.list [.tuple [.str "store", .var x]]) b w =
      .ok (storeAll lf rels b facts w) (.rows [b]) := by
  rw [solve_core (f := coreStore) (S.notDefined (.inr rfl) c) (by rfl) (by decide)]
  have hc : coreStore (dbValues [.var x] b) ⟨"store", [], [.var x], b, solverAt (modelOf (tellModules li l lf rels tables)) (n + 1)⟩ w =
      .ok (storeAll lf rels b facts w) (.rows [[.none]]) := by
    have hdb : dbValues [.var x] b = [toQuery facts] := by simp [dbValues, hget]
    rw [hdb]
    unfold coreStore
    simp only [nth, List.getElem?_cons_zero]
    show (M.bind (M.pure (toQuery facts)) _) w = _
    simp only [M.bind, M.pure, toQuery]
    have := S.storeLoop (ctx := ⟨"store", [], [.var x], b, solverAt (modelOf (tellModules li l lf rels tables)) (n + 1)⟩) rfl b (atoms := facts) w hf
    rw [M.bind_ok this]
    rfl
  rw [hc]
  dsimp only
  have he : extendRow b [.var x] [.none] b false = .ok (b, false) := by
    rw [extendRow_none (v := toQuery facts) (by simp [argValue, hget])]; rfl
  rw [dedupRows_singleton]
  exact resultsOf_one (by rfl) _ he

theorem get_append_some {b b' : Binding} {x : String} {v : Value} (h : Dict.get b x = some v) : Dict.get (b ++ b') x = some v := by
  induction b with
  | nil => simp at h
  | cons g b ih =>
    obtain ⟨k, z⟩ := g
    rw [Dict.get_cons] at h
    rw [List.cons_append, Dict.get_cons]
    split at h
    · rename_i hk; rw [if_pos hk]; exact h
    · rename_i hk; rw [if_neg hk]; exact ih h

theorem bindVars_told {b b' : Binding} {v : Value} (hf : FlatValue v) (hp : Plain (fillVar b v)) : bindVars (b ++ b') v = fillVar b v := by
  rw [bindVars_flat _ hf]
  cases v <;> simp only [fillVar]
  rename_i x
  simp only [fillVar] at hp
  cases e : Dict.get b x with
  | none => rw [e] at hp; simp [Plain, Value.isVar] at hp
  | some u => rw [get_append_some e]

variable {wg : Grammar WriteSem} {rule : WRule} {text : Str}

theorem recordsOf_append (rels : Dict (List String)) (k1 k2 : Query) : recordsOf rels (k1 ++ k2) = recordsOf rels k1 ++ recordsOf rels k2 := by
  simp [recordsOf]

include S in
theorem tell_one {w : W} (c : CanTell (li.get w)) (he : l.get w = SimpleStore.clear) {known : Query} (hk : Represents (lf.get w) (recordsOf rels known))
    {t : Telling} (ok : t.Ok rels) (hrule : RepliesWith wg "ok" rule) (hl : TextRule rule "ok" text) (n m : Nat) :
    ∃ f w2, (solverAt (modelOf (tellModules li l lf rels tables)) (n + 3)).solve t.meaning [] w = .ok w2 (.rows [t.given]) ∧
      generateOutput (solverAt (modelOf (tellModules li l lf rels tables)) (n + 3)) wg l (m + 1) w2 = .ok (lf.put f w) (.str (String.ofList text)) ∧
      Represents f (recordsOf rels (known ++ t.told)) := by
  have hnone : Dict.get t.given "Atoms" = none := by
    cases e : Dict.get t.given "Atoms" with
    | none => rfl
    | some v => exact absurd rfl (ok.names _ (Dict.mem_of_get e))
  obtain ⟨f, hf⟩ := storeAll_put lf rels (t.given ++ [("Atoms", toQuery t.facts)]) t.facts w
  have hrep := storeAll_represents lf rels (t.given ++ [("Atoms", toQuery t.facts)]) t.facts w hk
  have hlog : (t.facts.map fun a => (⟨a.1, (rels.get a.1).getD [], a.2.map (bindVars (t.given ++ [("Atoms", toQuery t.facts)]))⟩ : LogRecord)) =
      recordsOf rels t.told := by
    simp only [recordsOf, Telling.told, List.map_map]
    refine List.map_congr_left fun a ha => ?_
    obtain ⟨cs, _, _, h3⟩ := ok.facts a ha
    simp only [Function.comp, LogRecord.mk.injEq, true_and]
    exact List.map_congr_left fun v hv => bindVars_told (h3 v hv).1 (h3 v hv).2
  rw [hlog, ← recordsOf_append, hf, lf.get_put] at hrep
  have c1 : CanTell (li.get (lf.put f w)) := by rw [S.keepF]; exact c
  have hclear : l.put SimpleStore.clear (lf.put f w) = lf.put f w := by rw [S.apart, ← he, l.put_get]
  have hempty : l.get (lf.put f w) = SimpleStore.clear := by rw [← hclear, l.get_put]
  have hstores := S.stores c1.free
  -- the facts are stored
  have hget : Dict.get (t.given ++ [("Atoms", toQuery t.facts)]) "Atoms" = some (toQuery t.facts) := by rw [get_append_new hnone]; rfl
  have hrb : (solverAt (modelOf (tellModules li l lf rels tables)) (n + 2)).solve (.list [.tuple [.str "store", .var "Atoms"]])
      (t.given ++ [("Atoms", toQuery t.facts)]) w = .ok (lf.put f w) (.rows [t.given ++ [("Atoms", toQuery t.facts)]]) := by
    rw [S.storeVar c.free hget (fun a ha => by
      obtain ⟨cs, h1, _⟩ := ok.facts a ha
      exact (Dict.has_iff _ _).2 ⟨_, h1⟩), hf]
  obtain ⟨w2, h2, h3, h4⟩ := stores_run hstores (atoms := [("output_type", [.str "ok"])]) (by
    intro a ha; simp at ha; subst ha; decide +kernel) (t.given ++ [("Atoms", toQuery t.facts)]) hempty n
  have hbody := solve_pair hrb h2
  have hi : findRelations (modelOf (tellModules li l lf rels tables)) w "sentence_tell" = [{ predicate := "sentence_tell", query := handleRule li.get }] := by
    obtain ⟨o1, o2⟩ := S.others (p := "sentence_tell") (by simp) w
    have hb : findRelations (tables.map (tableModule W) ++ [memoryModule lf rels]) w "sentence_tell" = [] := by
      simp only [findRelations, List.filterMap_eq_nil_iff]; exact o1
    have hcore : (coreModule W).relations w "sentence_tell" = none := rfl
    have hinf : (inferenceModule li).relations w "sentence_tell" = some { predicate := "sentence_tell", query := handleRule li.get } := by
      simp [inferenceModule, c.intent]
    simp only [findRelations] at hb
    simp only [modelOf, tellModules, findRelations, List.filterMap_cons, hcore, List.filterMap_append, hb, hinf, o2, List.filterMap_nil, List.nil_append]
  have hwithout : Dict.without t.given tellIntent.variables = t.given := by
    refine List.filter_eq_self.2 fun g hg => ?_
    have := ok.names g hg
    simp [tellIntent, Rule.variables, varsOfList, varsOf, this]
  have hsent := intent_at (n := n + 2) (b := t.given) hi (fun db args b api rows h => by
      refine (handleRule_run (p := "sentence_tell") (db := db) c.rule).trans ?_
      simp only [solveRules, M.bind_run, h]
      simp [M.pure_run]) (xs := ["Atoms"])
    (args := [toQuery t.facts]) rfl (by decide) rfl (by intro a ha; rw [List.mem_singleton.1 ha]; rfl) (by decide) rfl hwithout
    (by intro x hx; rw [List.mem_singleton.1 hx]; exact hnone) hbody
  refine ⟨f, w2, ?_, ?_, hrep⟩
  · have := solve_lets (S.notDefined (.inl rfl) c.free) t.given [] (by simpa using ok.once) ok.values hsent
    simpa [Telling.meaning] using this
  · rw [text_reply (hstores.congr h4) h3 hrule hl (k := n + 2) m, h4, hclear]

/-! ## Questions -/

theorem recordsOf_ok (hcol : ∀ p cs, rels.get p = some cs → cs.Nodup) {known : Query} (h : KnownOk rels known) :
    ∀ r ∈ recordsOf rels known, RecordOk rels r ∧ ∀ v ∈ r.values, Plain v := by
  intro r hr
  obtain ⟨a, ha, rfl⟩ := List.mem_map.1 hr
  obtain ⟨cs, h1, h2, h3⟩ := h a ha
  exact ⟨⟨by simp [h1], by simpa [h1] using hcol _ _ h1, by simpa [h1] using h2, fun v hv => (h3 v hv).1⟩, h3⟩

theorem mem_rowsOf {known : Query} {p : String} {row : List Value} : row ∈ rowsOf (recordsOf rels known) p ↔ (p, row) ∈ known := by
  simp only [rowsOf, recordsOf, List.mem_map, List.mem_filter, decide_eq_true_eq]
  constructor
  · rintro ⟨r, ⟨⟨a, ha, rfl⟩, rfl⟩, rfl⟩; exact ha
  · intro h; exact ⟨_, ⟨⟨_, h, rfl⟩, rfl⟩, rfl⟩

theorem program_told {known : Query} (h : KnownOk rels known) :
    program ((tables ++ [memoryDb rels (recordsOf rels known)]) ++ [[]]) rs = toldProgram tables known rs := by
  simp only [program, toldProgram, Program.mk.injEq, and_true]
  funext p row
  refine propext ⟨?_, ?_⟩
  · rintro ⟨db, hdb, rows, h1, h2⟩
    simp only [List.append_assoc, List.mem_append, List.mem_cons, List.not_mem_nil, or_false] at hdb
    rcases hdb with hdb | rfl | rfl
    · exact .inl ⟨db, hdb, rows, h1, h2⟩
    · rw [memoryDb_get] at h1
      obtain ⟨_, _, rfl⟩ := Option.map_eq_some_iff.1 h1
      exact .inr (mem_rowsOf.1 h2)
    · simp at h1
  · rintro (⟨db, hdb, rows, h1, h2⟩ | hk)
    · exact ⟨db, by simp [hdb], rows, h1, h2⟩
    · obtain ⟨cs, hcs, _⟩ := h _ hk
      exact ⟨memoryDb rels (recordsOf rels known), by simp, rowsOf (recordsOf rels known) p, by rw [memoryDb_get, hcs]; rfl, mem_rowsOf.2 hk⟩

include S in
theorem TellSystem.programOk {known : Query} (h : KnownOk rels known) :
    ProgramOk W ar ((tables ++ [memoryDb rels (recordsOf rels known)]) ++ [[]]) rs := by
  refine ⟨S.ok.notReserved, fun p k hp => ?_, fun p k hp db hdb rows hr row hrow => ?_, S.ok.rulesOk⟩
  · rcases S.ok.defined p k hp with ⟨db, hdb, h1⟩ | h1
    · rcases List.mem_append.1 hdb with hdb | hdb
      · exact .inl ⟨db, by simp [hdb], h1⟩
      · rw [List.mem_singleton.1 hdb] at h1
        refine .inl ⟨memoryDb rels (recordsOf rels known), by simp, ?_⟩
        rw [Dict.has, memoryDb_get] at h1 ⊢
        simpa using h1
    · exact .inr h1
  · simp only [List.append_assoc, List.mem_append, List.mem_cons, List.not_mem_nil, or_false] at hdb
    rcases hdb with hdb | rfl | rfl
    · exact S.ok.rowsOk p k hp db (by simp [hdb]) rows hr row hrow
    · rw [memoryDb_get] at hr
      obtain ⟨cs, hcs, rfl⟩ := Option.map_eq_some_iff.1 hr
      obtain ⟨cs', h1, h2, h3⟩ := h _ (mem_rowsOf.1 hrow)
      exact ⟨h2.trans (S.arity p k cs' h1 hp), h3⟩
    · simp at hr

theorem factModules_append {w : W} {ms1 ms2 : List (Module W)} {d1 d2 : List (Dict (List (List Value)))} (h1 : FactModules ar w ms1 d1)
    (h2 : FactModules ar w ms2 d2) : FactModules ar w (ms1 ++ ms2) (d1 ++ d2) := by
  induction ms1 generalizing d1 with
  | nil => cases d1 with
    | nil => exact h2
    | cons _ _ => simp [FactModules] at h1
  | cons m ms ih => cases d1 with
    | nil => simp [FactModules] at h1
    | cons d ds => exact ⟨h1.1, ih h1.2⟩

theorem tellIntent_bound : tellIntent.HeadBound := by
  intro p hargs body e x hx
  have : tellIntent = (⟨"sentence_tell", [.var "Atoms"],
      [("store", [.var "Atoms"]), ("store", [.list [.tuple [.str "output_type", .str "ok"]]])]⟩ : HornRule).toRule := rfl
  rw [this] at e
  have := toRule_injective (r' := ⟨p, hargs, body⟩) e
  simp only [HornRule.mk.injEq] at this
  obtain ⟨_, rfl, rfl⟩ := this
  simp [queryVars] at hx ⊢
  exact hx

include S in
theorem ask_with {w : W} (extra : List Rule) (hextra : ∀ e ∈ extra, e.pred ≠ some "$disjunction" ∧ ∀ p k, ar p = some k → e.pred ≠ some p)
    (hbound : ∀ e ∈ extra, e.HeadBound) (hins : insertAll (extra ++ rs.map HornRule.toRule) InfState.init = .ok (li.get w)) {known : Query} (hko : KnownOk rels known)
    (hk : Represents (lf.get w) (recordsOf rels known)) {q : Query} (hq : QueryOk ar q) {b : Binding} (hb : PlainB b) (n : Nat) :
    (solverAt (modelOf (tellModules li l lf rels tables)) n).solve (toQuery q) b w = .oof ∨
    ∃ bs, (solverAt (modelOf (tellModules li l lf rels tables)) n).solve (toQuery q) b w = .ok w (.rows bs) ∧
      SoundB (toldProgram tables known rs) q b bs ∧ NoDup bs ∧ (HeadsBound rs → CompleteB (toldProgram tables known rs) q b bs) := by
  have hf : FactModules ar w (tables.map (tableModule W) ++ [memoryModule lf rels]) (tables ++ [memoryDb rels (recordsOf rels known)]) :=
    factModules_append (tableModules_fact ar w tables) ⟨memoryModule_fact ar lf w rels hk fun r hr => (recordsOf_ok S.columns hko r hr).1, trivial⟩
  have hf' : FactModules ar w [outputBuffer l] [[]] := by
    refine ⟨fun p k hp => ?_, trivial⟩
    have : outputRelations.get p = none := by
      cases e : outputRelations.get p with
      | none => rfl
      | some c => have := (S.free p (.inr (.inr (.inr ((Dict.has_iff _ _).2 ⟨_, e⟩))))).2.2.2; rw [this] at hp; simp at hp
    simp [outputBuffer, memoryModule, this]
  have := solve_exact_others li w ar hf hf' extra rs (S.programOk hko) hextra hbound hins hq hb n
  rwa [program_told hko] at this

include S in
theorem tellIntent_apart : ∀ p k, ar p = some k → tellIntent.pred ≠ some p := by
  intro p k hp e
  have : p = "sentence_tell" := (Option.some.inj e).symm
  subst this; rw [(S.free _ (.inr (.inl rfl))).2.2.2] at hp; simp at hp

include S in
theorem ask_one {w : W} (hins : insertAll (tellIntent :: rs.map HornRule.toRule) InfState.init = .ok (li.get w)) {known : Query} (hko : KnownOk rels known)
    (hk : Represents (lf.get w) (recordsOf rels known)) {q : Query} (hq : QueryOk ar q) {b : Binding} (hb : PlainB b) (n : Nat) :
    (solverAt (modelOf (tellModules li l lf rels tables)) n).solve (toQuery q) b w = .oof ∨
    ∃ bs, (solverAt (modelOf (tellModules li l lf rels tables)) n).solve (toQuery q) b w = .ok w (.rows bs) ∧
      SoundB (toldProgram tables known rs) q b bs ∧ NoDup bs ∧ (HeadsBound rs → CompleteB (toldProgram tables known rs) q b bs) := by
  exact ask_with S [tellIntent] (fun e he => by rw [List.mem_singleton.1 he]; exact ⟨by decide, tellIntent_apart S⟩)
    (fun e he => by rw [List.mem_singleton.1 he]; exact tellIntent_bound) hins hko hk hq hb n

/-! ## Sessions -/

theorem told_ok {t : Telling} (ok : t.Ok rels) {known : Query} (hk : KnownOk rels known) : KnownOk rels (known ++ t.told) := by
  intro a ha
  rcases List.mem_append.1 ha with ha | ha
  · exact hk a ha
  · obtain ⟨a', ha', rfl⟩ := List.mem_map.1 ha
    obtain ⟨cs, h1, h2, h3⟩ := ok.facts a' ha'
    refine ⟨cs, h1, by simpa using h2, fun v hv => ?_⟩
    obtain ⟨u, hu, rfl⟩ := List.mem_map.1 hv
    exact (h3 u hu).2

include S in
theorem tells_good (hrule : RepliesWith wg "ok" rule) (hl : TextRule rule "ok" text) (n m : Nat) (ts : List TellTurn) :
    ∀ {known : Query} {w : W}, l.get w = SimpleStore.clear → insertAll (tellIntent :: rs.map HornRule.toRule) InfState.init = .ok (li.get w) →
    KnownOk rels known → Represents (lf.get w) (recordsOf rels known) → SensibleTells rels ar ts →
    runTells (solverAt (modelOf (tellModules li l lf rels tables)) (n + 3)) wg l (m + 1) ts w = .oof ∨
    ∃ outs f, runTells (solverAt (modelOf (tellModules li l lf rels tables)) (n + 3)) wg l (m + 1) ts w = .ok (lf.put f w) outs ∧
      RightTells tables rs (String.ofList text) known ts outs ∧ Represents f (recordsOf rels (known ++ toldIn ts)) := by
  induction ts with
  | nil =>
    intro known w he hins hko hk hts
    exact .inr ⟨[], lf.get w, by rw [lf.put_get]; rfl, trivial, by simpa [toldIn] using hk⟩
  | cons t ts ih =>
    intro known w he hins hko hk hts
    have c := canTell_inserted (fun p hp => (S.free p hp).2.2.1) hins
    have hts' : SensibleTells rels ar ts := fun t ht => hts t (List.mem_cons_of_mem _ ht)
    cases t with
    | tell t =>
      have hok : t.Ok rels := hts _ List.mem_cons_self
      obtain ⟨f, w2, h1, h2, h3⟩ := tell_one S c he hk hok hrule hl n m
      have hclear : l.put SimpleStore.clear (lf.put f w) = lf.put f w := by rw [S.apart, ← he, l.put_get]
      simp only [runTells]
      rw [M.bind_ok h1, M.bind_ok h2]
      rcases ih (w := lf.put f w) (by rw [← hclear, l.get_put]) (by rw [S.keepF]; exact hins) (told_ok hok hko) (by rw [lf.get_put]; exact h3) hts' with h4 | ⟨outs, f', h4, h5, h6⟩
      · left; rw [M.bind_run, h4]
      · right
        rw [M.bind_ok h4, lf.put_put]
        exact ⟨_, f', rfl, ⟨rfl, h5⟩, by simpa [toldIn] using h6⟩
    | ask q b =>
      obtain ⟨hq, hb⟩ : QueryOk ar q ∧ PlainB b := hts _ List.mem_cons_self
      simp only [runTells]
      rcases ask_one S hins hko hk hq hb (n + 3) with h1 | ⟨bs, h1, h2⟩
      · left; rw [M.bind_run, h1]
      · rw [M.bind_ok h1]
        rcases ih he hins hko hk hts' with h4 | ⟨outs, f', h4, h5, h6⟩
        · left; rw [M.bind_run, h4]
        · right
          rw [M.bind_ok h4]
          exact ⟨_, f', rfl, ⟨h2.1, h2.2.1, h2.2.2, h5⟩, by simpa [toldIn] using h6⟩

include S in
/-- **C107** A session of sentences that tell facts and of questions: each sentence that tells facts gets the text for "ok", and each question exactly the
answers that follow from the tables, the rules, what was known at the start and what was told before. At the end the memory module holds what was known
at the start and what was told, in order; nothing else has changed. -/
theorem C107_session {w : W} (he : l.get w = SimpleStore.clear) (hins : insertAll (tellIntent :: rs.map HornRule.toRule) InfState.init = .ok (li.get w))
    {known : Query} (hko : KnownOk rels known) (hk : Represents (lf.get w) (recordsOf rels known)) {ts : List TellTurn} (hts : SensibleTells rels ar ts)
    (hrule : RepliesWith wg "ok" rule) (hl : TextRule rule "ok" text) {n m : Nat} {w' : W} {outs : List TurnOut}
    (h : runTells (solverAt (modelOf (tellModules li l lf rels tables)) (n + 3)) wg l (m + 1) ts w = .ok w' outs) :
    RightTells tables rs (String.ofList text) known ts outs ∧ ∃ f, w' = lf.put f w ∧ Represents f (recordsOf rels (known ++ toldIn ts)) := by
  rcases tells_good S hrule hl n m ts he hins hko hk hts with h1 | ⟨outs', f, h1, h2, h3⟩
  · rw [h] at h1; simp at h1
  · rw [h] at h1
    simp only [Res.ok.injEq] at h1
    obtain ⟨rfl, rfl⟩ := h1
    exact ⟨h2, f, rfl, h3⟩

include S in
/-- **C107** No turn of such a session raises an exception. -/
theorem C107_no_exception {w : W} (he : l.get w = SimpleStore.clear) (hins : insertAll (tellIntent :: rs.map HornRule.toRule) InfState.init = .ok (li.get w))
    {known : Query} (hko : KnownOk rels known) (hk : Represents (lf.get w) (recordsOf rels known)) {ts : List TellTurn} (hts : SensibleTells rels ar ts)
    (hrule : RepliesWith wg "ok" rule) (hl : TextRule rule "ok" text) (n m : Nat) (w' : W) (e : Err) :
    runTells (solverAt (modelOf (tellModules li l lf rels tables)) (n + 3)) wg l (m + 1) ts w ≠ .err w' e := by
  rcases tells_good S hrule hl n m ts he hins hko hk hts with h1 | ⟨outs', f, h1, _⟩ <;> rw [h1] <;> simp

include S in
/-- **C107** A sentence that tells facts always returns, with the text for "ok", even if there are rules for the predicates of the facts; the facts are
stored behind what was stored, and the output buffer is empty again. -/
theorem C107_sentence {w : W} (he : l.get w = SimpleStore.clear) (hins : insertAll (tellIntent :: rs.map HornRule.toRule) InfState.init = .ok (li.get w))
    {known : Query} (hk : Represents (lf.get w) (recordsOf rels known)) {t : Telling} (ok : t.Ok rels)
    (hrule : RepliesWith wg "ok" rule) (hl : TextRule rule "ok" text) (n m : Nat) :
    ∃ w2 w3, (solverAt (modelOf (tellModules li l lf rels tables)) (n + 3)).solve t.meaning [] w = .ok w2 (.rows [t.given]) ∧
      generateOutput (solverAt (modelOf (tellModules li l lf rels tables)) (n + 3)) wg l (m + 1) w2 = .ok w3 (.str (String.ofList text)) ∧
      Represents (lf.get w3) (recordsOf rels (known ++ t.told)) ∧ l.get w3 = SimpleStore.clear ∧ li.get w3 = li.get w := by
  obtain ⟨f, w2, h1, h2, h3⟩ := tell_one S (canTell_inserted (fun p hp => (S.free p hp).2.2.1) hins) he hk ok hrule hl n m
  refine ⟨w2, _, h1, h2, by rw [lf.get_put]; exact h3, ?_, S.keepF w f⟩
  have hclear : l.put SimpleStore.clear (lf.put f w) = lf.put f w := by rw [S.apart, ← he, l.put_get]
  rw [← hclear, l.get_put]

end

namespace Ex

/-- An inference module, an output buffer, and what was told. -/
abbrev Listener := InfState × SimpleStore × SimpleStore

def listenerInf : Lens Listener InfState := ⟨fun w => w.1, fun s w => (s, w.2), fun _ _ => rfl, fun _ => rfl, fun _ _ _ => rfl⟩
def listenerOut : Lens Listener SimpleStore := ⟨fun w => w.2.1, fun s w => (w.1, s, w.2.2), fun _ _ => rfl, fun _ => rfl, fun _ _ _ => rfl⟩
def listenerFacts : Lens Listener SimpleStore := ⟨fun w => w.2.2, fun s w => (w.1, w.2.1, s), fun _ _ => rfl, fun _ => rfl, fun _ _ _ => rfl⟩

/-- The relations of the memory module. There are rows for `parent`, and rules for `ancestor`, as well. -/
def listenerRels : Dict (List String) := [("parent", ["parent", "child"]), ("ancestor", ["old", "young"])]

/-- The family, an inference module with the intent and the rules for ancestors, an output buffer and a memory module. -/
def listener : Listener :=
  ({ relations := [("learn_rule", .learnRule), ("sentence_tell", .handleRule), ("ancestor", .handleRule)]
     rules := [("sentence_tell", [tellIntent]), ("ancestor", ancestorRules.map HornRule.toRule)] }, SimpleStore.clear, SimpleStore.clear)

theorem listener_inserted : insertAll (tellIntent :: ancestorRules.map HornRule.toRule) InfState.init = .ok (listenerInf.get listener) := by
  decide +kernel

theorem taken_ne {p : String} (h : Taken p) : p ≠ "parent" ∧ p ≠ "ancestor" := by
  constructor <;> rintro rfl <;> revert h <;> simp [Taken] <;> decide

theorem listener_system : TellSystem listenerInf listenerOut listenerFacts listenerRels [family] ancestorRules familyAr := by
  refine ⟨fun _ _ _ => rfl, fun _ _ => rfl, fun _ _ => rfl, ⟨by decide, by decide, fun p f hf => ?_⟩, fun p cs h => ?_, fun p hp => ?_, ⟨?_, ?_, ?_, family_ok.rulesOk⟩, ?_⟩
  · have hne : p ≠ "parent" ∧ p ≠ "ancestor" := by
      constructor <;> rintro rfl <;> simp [coreTable, Dict.get] at hf
    simp [listenerRels, Dict.get, hne.1.symm, hne.2.symm]
  · simp only [listenerRels, Dict.get_cons, Dict.get_nil] at h
    split at h
    · cases h; decide
    · split at h
      · cases h; decide
      · cases h
  · obtain ⟨h1, h2⟩ := taken_ne hp
    refine ⟨by simp [listenerRels, Dict.get, h1.symm, h2.symm], ?_, ?_, by simp [familyAr, h1, h2]⟩
    · intro db hdb
      rw [List.mem_singleton.1 hdb]
      simp [family, Dict.get, h1.symm]
    · intro r hr
      simp only [ancestorRules, List.mem_cons, List.not_mem_nil, or_false] at hr
      rcases hr with rfl | rfl <;> exact h2.symm
  · refine ⟨by decide, by decide, fun p f hf => ?_⟩
    have hne : p ≠ "parent" ∧ p ≠ "ancestor" := by
      constructor <;> rintro rfl <;> simp [coreTable, Dict.get] at hf
    simp [familyAr, hne.1, hne.2]
  · intro p k hp
    rcases family_ok.defined p k hp with ⟨db, hdb, h1⟩ | h1
    · exact .inl ⟨db, List.mem_append_left _ hdb, h1⟩
    · exact .inr h1
  · intro p k hp db hdb rows hr row hrow
    rcases List.mem_append.1 hdb with hdb | hdb
    · exact family_ok.rowsOk p k hp db hdb rows hr row hrow
    · rw [List.mem_singleton.1 hdb, memoryDb_get] at hr
      obtain ⟨_, _, rfl⟩ := Option.map_eq_some_iff.1 hr
      simp [rowsOf] at hrow
  · intro p k cs h hp
    simp only [listenerRels, Dict.get_cons, Dict.get_nil] at h
    split at h
    · rename_i e; subst e; cases h; simp [familyAr] at hp; simpa using hp
    · split at h
      · rename_i e; subst e; cases h; simp [familyAr] at hp; simpa using hp
      · cases h

/-- A sentence that tells two facts, in one of which a variable has a given value. -/
def tellEve : Telling := ⟨[("E", .str "eve")], [("parent", [.str "dan", .var "E"]), ("ancestor", [.str "ann", .str "zed"])]⟩

theorem tellEve_ok : tellEve.Ok listenerRels := by
  refine ⟨by simp [tellEve], by simp [tellEve, Value.isVar], by simp [tellEve], fun a ha => ?_⟩
  simp only [tellEve, List.mem_cons, List.not_mem_nil, or_false] at ha
  rcases ha with rfl | rfl
  · refine ⟨["parent", "child"], rfl, rfl, ?_⟩
    simp [tellEve, FlatValue, fillVar, Dict.get, Plain, Value.isVar, legal]
  · refine ⟨["old", "young"], rfl, rfl, ?_⟩
    simp [FlatValue, fillVar, Plain, Value.isVar, legal]

/-- Ask, tell, ask. -/
def listenerTurns : List TellTurn := [.ask annQuery [], .tell tellEve, .ask annQuery []]

theorem listener_sensible : SensibleTells listenerRels familyAr listenerTurns := by
  intro t ht
  simp only [listenerTurns, List.mem_cons, List.not_mem_nil, or_false] at ht
  rcases ht with rfl | rfl | rfl
  · exact ⟨family_query_ok, noBinding⟩
  · exact tellEve_ok
  · exact ⟨family_query_ok, noBinding⟩

theorem nothing_known : KnownOk listenerRels [] ∧ Represents (listenerFacts.get listener) (recordsOf listenerRels []) :=
  ⟨by simp [KnownOk], by intro t; rfl⟩

/-- What the turns give. -/
theorem listener_run : runTells (solverAt (modelOf (tellModules listenerInf listenerOut listenerFacts listenerRels [family])) (6 + 3))
      (homeWrite (fun _ _ => 0) (fun _ => .ok (.str ""))) listenerOut (0 + 1) listenerTurns listener =
    .ok (listenerFacts.put [("parent", [[("parent", .str "dan"), ("child", .str "eve")]]), ("ancestor", [[("old", .str "ann"), ("young", .str "zed")]])] listener)
      [.answers (.rows [[("W", .str "bob")], [("W", .str "cas")], [("W", .str "dan")]]), .reply (.str "OK"),
       .answers (.rows [[("W", .str "zed")], [("W", .str "bob")], [("W", .str "cas")], [("W", .str "dan")], [("W", .str "eve")]])] := by
  decide +kernel

variable (H : Constituent → List Constituent → Nat) (f : List Value → Except Err Value)

/-- The hypotheses of the theorems are met by it. -/
example := C107_session listener_system rfl listener_inserted nothing_known.1 nothing_known.2 listener_sensible (pupil_reply _ _)
  ((say_rules _ (fun _ => .ok (.str ""))).1 "ok" _) listener_run
example := C107_no_exception listener_system rfl listener_inserted nothing_known.1 nothing_known.2 listener_sensible (pupil_reply H f) ((say_rules H f).1 "ok" _) 4 2
example := C107_sentence listener_system rfl listener_inserted nothing_known.2 tellEve_ok (pupil_reply H f) ((say_rules H f).1 "ok" _) 4 2

/-- **C107** The condition that there is a relation in a memory module is needed: if a predicate has only rules, what is told about it is lost, although the
reply is the text for "ok". -/
theorem C107_lost : runTells (solverAt (modelOf (tellModules listenerInf listenerOut listenerFacts [] [family])) 4)
      (homeWrite (fun _ _ => 0) (fun _ => .ok (.str ""))) listenerOut 1 [.tell ⟨[], [("ancestor", [.str "ann", .str "zed"])]⟩] listener =
    .ok listener [.reply (.str "OK")] := by
  decide +kernel

/-- **C107** If a predicate has no relation at all, telling raises an exception; what was stored before it in the same sentence stays. -/
theorem C107_unknown : runTells (solverAt (modelOf (tellModules listenerInf listenerOut listenerFacts listenerRels [family])) 4)
      (homeWrite (fun _ _ => 0) (fun _ => .ok (.str ""))) listenerOut 1
      [.tell ⟨[], [("parent", [.str "dan", .str "eve"]), ("sister", [.str "ann", .str "zed"])]⟩] listener =
    .err (listenerFacts.put [("parent", [[("parent", .str "dan"), ("child", .str "eve")]])] listener)
      (.exception "No relation available in the model") := by
  decide +kernel

end Ex

end Verif

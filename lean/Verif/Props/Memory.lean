import Verif.MemoryLemmas
import Verif.Props.Datalog
import Verif.CoreLemmas

/-!
# C18, C25: storing facts, dialog contexts
-/

namespace Verif

variable {W : Type}

/-! ## C18 -/

/-- The query `store([...])`. -/
def storeQuery (atoms : Query) : Value := .list [.tuple [.str "store", toQuery atoms]]

/-- In the world `w`, whatever the memory module holds, the model has the core module's `store`, and its only relations for the predicates in `rels` are
those of the memory module. -/
structure StoresIn (ms : List (Module W)) (l : Lens W SimpleStore) (rels : Dict (List String)) (w : W) : Prop where
  store : ∀ s, NotDefined ms (l.put s w) "store"
  rels : ∀ s p cs, rels.get p = some cs → findRelations (modelOf ms) (l.put s w) p = [memoryRelation l p cs]

section
variable {ms : List (Module W)} {l : Lens W SimpleStore} {rels : Dict (List String)} {w : W}

theorem StoresIn.put (hm : StoresIn ms l rels w) (s : SimpleStore) : StoresIn ms l rels (l.put s w) :=
  ⟨fun s' => by rw [l.put_put]; exact hm.store s', fun s' p cs h => by rw [l.put_put]; exact hm.rels s' p cs h⟩

theorem StoresIn.store_here (hm : StoresIn ms l rels w) : NotDefined ms w "store" := by
  have := hm.store (l.get w)
  rwa [l.put_get] at this

theorem StoresIn.rels_here (hm : StoresIn ms l rels w) {p : String} {cs : List String} (h : rels.get p = some cs) :
    findRelations (modelOf ms) w p = [memoryRelation l p cs] := by
  have := hm.rels (l.get w) p cs h
  rwa [l.put_get] at this

end

/-- The world after storing atoms one after the other. -/
def storeAll (l : Lens W SimpleStore) (rels : Dict (List String)) (b : Binding) (atoms : Query) (w : W) : W :=
  atoms.foldl (fun w a => l.put ((l.get w).insert a.1 ((rels.get a.1).getD []) (a.2.map (bindVars b))) w) w

theorem StoresIn.storeAll {ms : List (Module W)} {l : Lens W SimpleStore} {rels rels' : Dict (List String)} {b : Binding} {atoms : Query} {w : W}
    (hm : StoresIn ms l rels w) : StoresIn ms l rels (storeAll l rels' b atoms w) := by
  induction atoms generalizing w with
  | nil => exact hm
  | cons a atoms ih => exact ih (hm.put _)

theorem storeLoop_run {ms : List (Module W)} {l : Lens W SimpleStore} {rels : Dict (List String)} {w : W} (hm : StoresIn ms l rels w)
    {ctx : Ctx W} {n : Nat} (hctx : ctx.solver = solverAt (modelOf ms) (n + 1)) (b : Binding) {atoms : Query}
    (ha : ∀ a ∈ atoms, rels.has a.1 = true) :
    storeLoop ctx (bindVarsList b (atoms.map toAtom)) w = .ok (storeAll l rels b atoms w) () := by
  induction atoms generalizing w with
  | nil => rfl
  | cons a atoms ih =>
    obtain ⟨p, args⟩ := a
    obtain ⟨cs, hcs⟩ := (Dict.has_iff _ _).1 (ha (p, args) (by simp))
    simp only [List.map_cons, bindVarsList, storeLoop, toAtom, bindVars]
    have hw : ctx.solver.writeAtom (.tuple (.str p :: bindVarsList b args)) w =
        .ok (l.put ((l.get w).insert p cs (args.map (bindVars b))) w) () := by
      rw [hctx]
      show writeAtom.go _ _ p _ w = _
      unfold writeAtom.go
      rw [M.bind_ok (M.gets_run _ w), hm.rels_here hcs]
      dsimp only [writeRelations]
      simp only [memoryRelation, memoryWrite, bindVarsList_eq_map]
      rw [M.bind_ok (M.modify_run _ w)]
      rfl
    rw [M.bind_ok hw, ih (hm.put _) fun a ha' => ha a (List.mem_cons_of_mem _ ha')]
    simp [storeAll, hcs]

/-- **C18** `store` writes all its atoms in order, with the bound variables replaced by their values, and has one answer: the
binding itself. -/
theorem C18_store {ms : List (Module W)} {l : Lens W SimpleStore} {rels : Dict (List String)} {w : W} (hm : StoresIn ms l rels w)
    {atoms : Query} (ha : ∀ a ∈ atoms, rels.has a.1 = true) (b : Binding) (n : Nat) :
    (solverAt (modelOf ms) (n + 2)).solve (storeQuery atoms) b w = .ok (storeAll l rels b atoms w) (.rows [b]) := by
  rw [storeQuery, solve_core (f := coreStore) hm.store_here (by rfl) (by decide)]
  have hc : coreStore (dbValues [toQuery atoms] b)
      ⟨"store", [], [toQuery atoms], b, solverAt (modelOf ms) (n + 1)⟩ w = .ok (storeAll l rels b atoms w) (.rows [[.none]]) := by
    have hdb : dbValues [toQuery atoms] b = [toQuery atoms] := rfl
    rw [hdb]
    unfold coreStore
    simp only [nth, List.getElem?_cons_zero]
    show (M.bind (M.pure (toQuery atoms)) _) w = _
    simp only [M.bind, M.pure, toQuery]
    have := storeLoop_run (ctx := ⟨"store", [], [toQuery atoms], b, solverAt (modelOf ms) (n + 1)⟩) hm rfl b ha
    simp only [toQuery] at this
    rw [M.bind_ok this]
    rfl
  rw [hc]
  dsimp only
  have he : extendRow b [toQuery atoms] [.none] b false = .ok (b, false) := by
    rw [extendRow_none (v := toQuery atoms) rfl]; rfl
  have := resultsOf_one (by rfl) (storeAll l rels b atoms w) he
  rw [dedupRows_singleton]
  exact this

/-- A history of `store` queries, each with its own binding. -/
def runStores (ms : List (Module W)) (n : Nat) : List (Binding × Query) → W → Res W Unit
  | [], w => .ok w ()
  | (b, atoms) :: hist, w => match (solverAt (modelOf ms) n).solve (storeQuery atoms) b w with
    | .ok w' _ => runStores ms n hist w'
    | .err w' e => .err w' e
    | .oof => .oof

/-- What a history of stores must have stored, in order (specification). -/
def storedLog (rels : Dict (List String)) (hist : List (Binding × Query)) : List LogRecord :=
  hist.flatMap fun bq => bq.2.map fun a => ⟨a.1, (rels.get a.1).getD [], a.2.map (bindVars bq.1)⟩

theorem storeAll_represents (l : Lens W SimpleStore) (rels : Dict (List String)) (b : Binding) (atoms : Query) (w : W)
    {log : List LogRecord} (h : Represents (l.get w) log) :
    Represents (l.get (storeAll l rels b atoms w))
      (log ++ atoms.map fun a => ⟨a.1, (rels.get a.1).getD [], a.2.map (bindVars b)⟩) := by
  induction atoms generalizing w log with
  | nil => simpa [storeAll] using h
  | cons a atoms ih =>
    have h1 := represents_step h (.insert a.1 ((rels.get a.1).getD []) (a.2.map (bindVars b)))
    have := ih (l.put ((l.get w).insert a.1 ((rels.get a.1).getD []) (a.2.map (bindVars b))) w)
      (log := log ++ [⟨a.1, (rels.get a.1).getD [], a.2.map (bindVars b)⟩]) (by rw [l.get_put]; exact h1)
    simpa [storeAll] using this

theorem runStores_ok {ms : List (Module W)} {l : Lens W SimpleStore} {rels : Dict (List String)} {w : W} (hm : StoresIn ms l rels w)
    {hist : List (Binding × Query)} (hh : ∀ bq ∈ hist, ∀ a ∈ bq.2, rels.has a.1 = true) (n : Nat) {log : List LogRecord}
    (h : Represents (l.get w) log) :
    ∃ w', runStores ms (n + 2) hist w = .ok w' () ∧ Represents (l.get w') (log ++ storedLog rels hist) ∧ StoresIn ms l rels w' := by
  induction hist generalizing w log with
  | nil => exact ⟨w, rfl, by simpa [storedLog] using h, hm⟩
  | cons bq hist ih =>
    obtain ⟨b, atoms⟩ := bq
    obtain ⟨w', h1, h2, h3⟩ := ih hm.storeAll (fun bq hbq => hh bq (List.mem_cons_of_mem _ hbq)) (storeAll_represents l rels b atoms w h)
    refine ⟨w', ?_, by simpa [storedLog] using h2, h3⟩
    simp only [runStores, C18_store hm (hh (b, atoms) (by simp))]
    exact h1

/-- The history only stores proper values, as many as the relation has columns. -/
def HistoryOk (rels : Dict (List String)) (hist : List (Binding × Query)) : Prop :=
  ∀ bq ∈ hist, ∀ a ∈ bq.2, ∃ cs, rels.get a.1 = some cs ∧ cs.Nodup ∧ a.2.length = cs.length ∧
    ∀ v ∈ a.2, Plain (bindVars bq.1 v)

/-- The predicates of a query and their numbers of arguments. -/
def relAr (rels : Dict (List String)) : String → Option Nat := fun p => (rels.get p).map List.length

/-- The predicates of the memory module are neither predicates of the core module nor `$disjunction` or `learn_rule`. -/
def NotReserved (W : Type) (rels : Dict (List String)) : Prop :=
  rels.get "$disjunction" = none ∧ rels.get "learn_rule" = none ∧ ∀ p f, (coreTable W).get p = some f → rels.get p = none

theorem storedLog_ok {rels : Dict (List String)} {hist : List (Binding × Query)} (h : HistoryOk rels hist) :
    ∀ r ∈ storedLog rels hist, RecordOk rels r ∧ ∀ v ∈ r.values, Plain v := by
  intro r hr
  simp only [storedLog, List.mem_flatMap, List.mem_map] at hr
  obtain ⟨bq, hbq, a, ha, rfl⟩ := hr
  obtain ⟨cs, h1, h2, h3, h4⟩ := h bq hbq a ha
  have hp : ∀ v ∈ a.2.map (bindVars bq.1), Plain v := by
    intro v hv
    obtain ⟨u, hu, rfl⟩ := List.mem_map.1 hv
    exact h4 u hu
  exact ⟨⟨by simp [h1], by simpa [h1] using h2, by simpa [h1] using h3, fun v hv => (hp v hv).1⟩, hp⟩

theorem holds_memory {ms : List (Module W)} {l : Lens W SimpleStore} {rels : Dict (List String)} {w : W} (hm : StoresIn ms l rels w)
    (hres : NotReserved W rels) {log : List LogRecord} (h : Represents (l.get w) log)
    (hlog : ∀ r ∈ log, RecordOk rels r ∧ ∀ v ∈ r.values, Plain v) :
    ProgramOk W (relAr rels) [memoryDb rels log] [] ∧
    Holds (modelOf ms) (fun _ => InfState.init) w (relAr rels) [memoryDb rels log] [] := by
  have hf := memoryModule_fact (relAr rels) l w rels h fun r hr => (hlog r hr).1
  have hsome : ∀ p k, relAr rels p = some k → ∃ cs, rels.get p = some cs ∧ cs.length = k := by
    intro p k hp
    simpa [relAr] using hp
  have htl : ∀ p cs, rels.get p = some cs → TableLike (memoryRelation l p cs) w (rowsOf log p) := by
    intro p cs hcs
    have := hf p cs.length (by simp [relAr, hcs])
    rw [memoryDb_get, hcs] at this
    obtain ⟨r, h1, h2⟩ := this
    simp only [memoryModule, hcs, Option.map_some, Option.some.injEq] at h1
    subst h1; exact h2
  refine ⟨⟨⟨by simp [relAr, hres.1], by simp [relAr, hres.2.1], fun p f hpf => by simp [relAr, hres.2.2 p f hpf]⟩, ?_, ?_, by simp⟩,
    ⟨?_, ?_, by simp, by simp [InfState.init]⟩⟩
  · intro p k hp
    obtain ⟨cs, hcs, _⟩ := hsome p k hp
    exact .inl ⟨memoryDb rels log, by simp, by simp [Dict.has, memoryDb_get, hcs]⟩
  · intro p k hp db hdb rows hrows row hrow
    simp only [List.mem_singleton] at hdb
    subst hdb
    obtain ⟨cs, hcs, hk⟩ := hsome p k hp
    rw [memoryDb_get, hcs] at hrows
    simp only [Option.map_some, Option.some.injEq] at hrows
    subst hrows
    simp only [rowsOf, List.mem_map, List.mem_filter, decide_eq_true_eq] at hrow
    obtain ⟨r, ⟨hr, rfl⟩, rfl⟩ := hrow
    obtain ⟨h1, h2⟩ := hlog r hr
    have : r.columns = cs := Option.some.inj (h1.columns.symm.trans hcs)
    exact ⟨by rw [h1.length, this, hk], h2⟩
  · intro p k hp r hr
    obtain ⟨cs, hcs, _⟩ := hsome p k hp
    rw [hm.rels_here hcs] at hr
    simp only [List.mem_singleton] at hr
    subst hr
    exact .inl ⟨memoryDb rels log, by simp, rowsOf log p, by simp [memoryDb_get, hcs], htl p cs hcs⟩
  · intro p k hp db hdb rows hrows
    simp only [List.mem_singleton] at hdb
    subst hdb
    obtain ⟨cs, hcs, _⟩ := hsome p k hp
    rw [memoryDb_get, hcs] at hrows
    simp only [Option.map_some, Option.some.injEq] at hrows
    subst hrows
    exact ⟨memoryRelation l p cs, by rw [hm.rels_here hcs]; simp, htl p cs hcs⟩

/-- Every atom of the query is, under the assignment, one of the stored tuples (specification). -/
def AllInLog (log : List LogRecord) (q : Query) (σ : Assignment) : Prop :=
  ∀ a ∈ q, ∃ r ∈ log, r.table = a.1 ∧ r.values = a.2.map (inst σ)

theorem allStored_memory {rels : Dict (List String)} {log : List LogRecord} {q : Query} (hq : QueryOk (relAr rels) q) (σ : Assignment) :
    AllStored [memoryDb rels log] q σ ↔ AllInLog log q σ := by
  have : ∀ a ∈ q, (∃ db ∈ [memoryDb rels log], ∃ rows, db.get a.1 = some rows ∧ a.2.map (inst σ) ∈ rows) ↔
      ∃ r ∈ log, r.table = a.1 ∧ r.values = a.2.map (inst σ) := by
    intro a ha
    obtain ⟨cs, hcs, _⟩ : ∃ cs, rels.get a.1 = some cs ∧ cs.length = a.2.length := by simpa [relAr] using (hq a ha).1
    simp only [List.mem_singleton, exists_eq_left, memoryDb_get, hcs, Option.map_some, Option.some.injEq, exists_eq_left', rowsOf,
      List.mem_map, List.mem_filter, decide_eq_true_eq]
    constructor
    · rintro ⟨r, ⟨h1, h2⟩, h3⟩; exact ⟨r, h1, h2, h3⟩
    · rintro ⟨r, h1, h2, h3⟩; exact ⟨r, ⟨h1, h2⟩, h3⟩
  exact ⟨fun h a ha => (this a ha).1 (h a ha), fun h a ha => (this a ha).2 (h a ha)⟩

/-- **C18** After any history of stores into an empty memory module, any query over its relations returns exactly the assignments
under which every atom is one of the stored tuples, each once. -/
theorem C18_read_back {ms : List (Module W)} {l : Lens W SimpleStore} {rels : Dict (List String)} {w : W} (hm : StoresIn ms l rels w)
    (hres : NotReserved W rels) {hist : List (Binding × Query)} (hh : HistoryOk rels hist) (hw : l.get w = SimpleStore.clear)
    {q : Query} (hq : QueryOk (relAr rels) q) {b : Binding} (hb : PlainB b) (n n' : Nat) :
    ∃ w' bs, runStores ms (n + 2) hist w = .ok w' () ∧
      (solverAt (modelOf ms) (n' + 1)).solve (toQuery q) b w' = .ok w' (.rows bs) ∧
      (∀ b' ∈ bs, Extends b b' ∧ (∀ x, b'.has x = true ↔ b.has x = true ∨ x ∈ queryVars q) ∧
        AllInLog (storedLog rels hist) q (asg b')) ∧
      (∀ σ : Assignment, (∀ x, Plain (σ x)) → Agrees σ b → AllInLog (storedLog rels hist) q σ →
        ∃ b' ∈ bs, Extends b b' ∧ ∀ x ∈ queryVars q, b'.get x = some (σ x)) ∧
      bs.Pairwise fun b1 b2 => ∃ x, b1.get x ≠ b2.get x := by
  obtain ⟨w', h1, h2, hm'⟩ := runStores_ok hm (fun bq hbq a ha => by
    obtain ⟨cs, h, _⟩ := hh bq hbq a ha
    simp [Dict.has, h]) n (log := []) (by intro t; simp [hw, SimpleStore.clear])
  rw [List.nil_append] at h2
  obtain ⟨hok, hholds⟩ := holds_memory hm' hres h2 (storedLog_ok hh)
  obtain ⟨bs, h3, h4, h5, h6⟩ := holds_exact hok hholds hq hb n'
  refine ⟨w', bs, h1, h3, fun b' hb' => ?_, fun σ hp hσ hall => ?_, h6⟩
  · obtain ⟨x, y, z⟩ := h4 b' hb'
    exact ⟨x, y, (allStored_memory hq _).1 z⟩
  · exact h5 σ hp hσ ((allStored_memory hq _).2 hall)

/-! ### Order -/

/-- First occurrences (specification). -/
def distinct : List (List Value) → List (List Value)
  | [] => []
  | r :: rs => r :: (distinct rs).filter fun x => decide (x ≠ r)

theorem dedupRows_distinct {rows : List (List Value)} (hl : ∀ r ∈ rows, legalList r = true) (seen : List (List Value))
    (hs : ∀ r ∈ seen, legalList r = true) :
    dedupRows (seen.map strRow) rows = (distinct rows).filter fun x => decide (x ∉ seen) := by
  induction rows generalizing seen with
  | nil => rfl
  | cons r rs ih =>
    have hl' : ∀ r ∈ rs, legalList r = true := fun r hr => hl r (List.mem_cons_of_mem _ hr)
    have hmem : strRow r ∈ seen.map strRow ↔ r ∈ seen := by
      constructor
      · intro h
        obtain ⟨r', hr', e⟩ := List.mem_map.1 h
        exact strRow_injective (hs r' hr') (hl r (by simp)) e ▸ hr'
      · intro h; exact List.mem_map.2 ⟨r, h, rfl⟩
    simp only [dedupRows, distinct, List.filter_cons, List.filter_filter, List.contains_iff_mem]
    by_cases hr : r ∈ seen
    · rw [if_pos (hmem.2 hr), ih hl' seen hs]
      simp only [hr, not_true_eq_false, decide_false, Bool.false_eq_true, if_false]
      apply List.filter_congr
      intro x _
      by_cases e : x = r
      · subst e; simp [hr]
      · simp [e]
    · rw [if_neg (fun h => hr (hmem.1 h))]
      have := ih hl' (seen ++ [r]) (by
        intro x hx
        rcases List.mem_append.1 hx with hx | hx
        · exact hs x hx
        · simp only [List.mem_singleton] at hx; subst hx; exact hl x (by simp))
      rw [List.map_append] at this
      simp only [List.map_cons, List.map_nil] at this
      rw [this]
      simp only [hr, not_false_eq_true, decide_true, if_true, List.cons.injEq, true_and]
      apply List.filter_congr
      intro x _
      simp [Bool.and_comm]

open Classical in
theorem createResults_order {b : Binding} {args : List Value} {rows : List (List Value)} (hok : ∀ r ∈ rows, RowOk b args r) {bs : List Binding}
    (h : createResults b args rows = .ok bs) :
    bs.map (fun b' => args.map (inst (asg b'))) = rows.filter fun r => decide (∃ σ, Agrees σ b ∧ args.map (inst σ) = r) := by
  induction rows generalizing bs with
  | nil => simp only [createResults, Except.ok.injEq] at h; subst h; rfl
  | cons r rows ih =>
    simp only [createResults] at h
    split at h
    · simp at h
    · rename_i result conflict he
      split at h
      · simp at h
      · rename_i rest hrest
        simp only [Except.ok.injEq] at h
        subst h
        have ih := ih (fun r hr => hok r (List.mem_cons_of_mem _ hr)) hrest
        cases conflict with
        | true =>
          have : ¬ ∃ σ, Agrees σ b ∧ args.map (inst σ) = r := by
            rintro ⟨σ, hσ, e⟩
            obtain ⟨b', h1, _⟩ := extendRow_complete (b := b) (args := args) hσ (Extends.refl _)
            rw [e, he] at h1
            simp at h1
          simp only [List.filter_cons, this, decide_false, Bool.false_eq_true, if_false, if_true, ih]
        | false =>
          obtain ⟨_, h1, _, _, h2⟩ := extendRow_sound (hok r (by simp)) (Extends.refl _) he
          have h3 := h2 (asg result) (asg_agrees result)
          have : ∃ σ, Agrees σ b ∧ args.map (inst σ) = r := ⟨asg result, (asg_agrees result).mono h1, h3⟩
          simp only [Bool.false_eq_true, if_false, List.map_cons, h3, List.filter_cons, this, decide_true, if_true, ih]

open Classical in
/-- The answers to a single atom, for a module that holds the records `log`. -/
theorem memory_order {ms : List (Module W)} {l : Lens W SimpleStore} {rels : Dict (List String)} {w : W} (hm : StoresIn ms l rels w)
    (hres : NotReserved W rels) {log : List LogRecord} (h2 : Represents (l.get w) log)
    (hlog : ∀ r ∈ log, RecordOk rels r ∧ ∀ v ∈ r.values, Plain v)
    {p : String} {args : List Value} (hp : relAr rels p = some args.length) {b : Binding} (hb : PlainB b) (n : Nat) :
    ∃ bs, (solverAt (modelOf ms) (n + 1)).solve (toQuery [(p, args)]) b w = .ok w (.rows bs) ∧
      bs.map (fun b' => args.map (inst (asg b'))) =
        (distinct (rowsOf log p)).filter fun r => decide (∃ σ, Agrees σ b ∧ args.map (inst σ) = r) := by
  obtain ⟨hok, hholds⟩ := holds_memory hm hres h2 hlog
  obtain ⟨cs, hcs, hk⟩ : ∃ cs, rels.get p = some cs ∧ cs.length = args.length := by simpa [relAr] using hp
  have hf := memoryModule_fact (relAr rels) l w rels h2 fun r hr => (hlog r hr).1
  have htl : TableLike (memoryRelation l p cs) w (rowsOf log p) := by
    have := hf p cs.length (by simp [relAr, hcs])
    rw [memoryDb_get, hcs] at this
    obtain ⟨r, h1, h2⟩ := this
    simp only [memoryModule, hcs, Option.map_some, Option.some.injEq] at h1
    subst h1; exact h2
  have hnd : p ≠ "$disjunction" := by
    rintro rfl; rw [hres.1] at hcs; simp at hcs
  have hrowsP : ∀ row ∈ rowsOf log p, row.length = args.length ∧ ∀ v ∈ row, Plain v := by
    intro row hrow
    exact hok.rowsOk p _ hp (memoryDb rels log) (by simp) (rowsOf log p) (by simp [memoryDb_get, hcs]) row hrow
  have hrok : ∀ row ∈ (rowsOf log p).filter (rowMatches (dbValues args b)), RowOk b args row := by
    intro row hrow
    rw [List.mem_filter] at hrow
    exact rowOk_of_matches hb (hrowsP row hrow.1).1 (hrowsP row hrow.1).2 hrow.2
  have hleg : ∀ row ∈ (rowsOf log p).filter (rowMatches (dbValues args b)), legalList row = true :=
    fun row hr => legalList_of_rowOk (hrok row hr)
  have hdd := dedupRows_distinct hleg [] (by simp)
  have hall : ∀ rows : List (List Value), rows.filter (fun x => decide (x ∉ ([] : List (List Value)))) = rows := fun rows =>
    List.filter_eq_self.2 (by simp)
  rw [hall, List.map_nil] at hdd
  have hdist : ∀ (f : List Value → Bool) (rows : List (List Value)), distinct (rows.filter f) = (distinct rows).filter f := by
    intro f rows
    induction rows with
    | nil => rfl
    | cons r rows ih =>
      simp only [List.filter_cons, distinct]
      by_cases hr : f r = true
      · simp only [hr, if_true, distinct, ih, List.filter_filter, List.cons.injEq, true_and]
        apply List.filter_congr
        intro x _; rw [Bool.and_comm]
      · simp only [hr, if_false, ih, List.filter_filter, Bool.false_eq_true]
        apply List.filter_congr
        intro x _
        by_cases e : x = r
        · subst e; simp [hr]
        · simp [e]
  have hmemd : ∀ rows : List (List Value), ∀ r, r ∈ distinct rows → r ∈ rows := by
    intro rows
    induction rows with
    | nil => simp [distinct]
    | cons x rows ih =>
      intro r hr
      simp only [distinct, List.mem_cons, List.mem_filter] at hr
      rcases hr with rfl | hr
      · simp
      · exact List.mem_cons_of_mem _ (ih r hr.1)
  have hrun : ∀ bs, createResults b args (distinct ((rowsOf log p).filter (rowMatches (dbValues args b)))) = .ok bs →
      (solverAt (modelOf ms) (n + 1)).solve (toQuery [(p, args)]) b w = .ok w (.rows bs) := by
    intro bs hbs
    show solveSingle.go (solverAt (modelOf ms) n) (modelOf ms) b p args w = _
    simp only [solveSingle.go, hnd, if_false, findRelationValues]
    rw [M.bind_run, M.bind_ok (M.gets_run _ w), hm.rels_here hcs]
    simp only [queryRelations]
    rw [M.bind_ok (htl _ _)]
    simp only [List.map_nil, List.nil_append, M.pure_run, hdd]
    cases hd : distinct ((rowsOf log p).filter (rowMatches (dbValues args b))) with
    | nil =>
      rw [hd] at hbs
      simp only [createResults, Except.ok.injEq] at hbs
      subst hbs; rfl
    | cons row rows =>
      have hlen : row.length = args.length := (hrok row (hmemd _ row (by rw [hd]; simp))).length
      rw [hd] at hbs
      simp only [resultsOf, hlen, ne_eq, not_true, if_false, hbs, Except.map, M.lift]
      rfl
  obtain ⟨bs, hbs⟩ := createResults_total (b := b) (args := args)
    (rows := distinct ((rowsOf log p).filter (rowMatches (dbValues args b)))) (fun row hr => (hrok row (hmemd _ row hr)).length)
  refine ⟨bs, hrun bs hbs, ?_⟩
  rw [createResults_order (fun row hr => hrok row (hmemd _ row hr)) hbs, hdist, List.filter_filter]
  apply List.filter_congr
  intro row _
  by_cases hc : ∃ σ, Agrees σ b ∧ args.map (inst σ) = row
  · obtain ⟨σ, hσ, e⟩ := hc
    have : rowMatches (dbValues args b) row = true := e ▸ matches_of_agrees hσ
    simp [this]
  · simp [hc]

open Classical in
/-- **C18** The answers to a single atom are, in this order, the stored tuples that match it, without repetitions. -/
theorem C18_order {ms : List (Module W)} {l : Lens W SimpleStore} {rels : Dict (List String)} {w : W} (hm : StoresIn ms l rels w)
    (hres : NotReserved W rels) {hist : List (Binding × Query)} (hh : HistoryOk rels hist) (hw : l.get w = SimpleStore.clear)
    {p : String} {args : List Value} (hp : relAr rels p = some args.length)
    {b : Binding} (hb : PlainB b) (n n' : Nat) :
    ∃ w' bs, runStores ms (n + 2) hist w = .ok w' () ∧
      (solverAt (modelOf ms) (n' + 1)).solve (toQuery [(p, args)]) b w' = .ok w' (.rows bs) ∧
      bs.map (fun b' => args.map (inst (asg b'))) =
        (distinct (rowsOf (storedLog rels hist) p)).filter fun r => decide (∃ σ, Agrees σ b ∧ args.map (inst σ) = r) := by
  obtain ⟨w', h1, h2, hm'⟩ := runStores_ok hm (fun bq hbq a ha => by
    obtain ⟨cs, h, _⟩ := hh bq hbq a ha
    simp [Dict.has, h]) n (log := []) (by intro t; simp [hw, SimpleStore.clear])
  rw [List.nil_append] at h2
  obtain ⟨bs, h3, h4⟩ := memory_order hm' hres h2 (storedLog_ok hh) hp hb n'
  exact ⟨w', bs, h1, h3, h4⟩

/-! ### Example -/

/-- Two relations. -/
def demoRels : Dict (List String) := [("likes", ["who", "what"]), ("tall", ["who"])]

/-- A model of one memory module. -/
def demoMems : List (Module SimpleStore) := [memoryModule (Lens.id _) demoRels]

theorem demoMems_storesIn (w : SimpleStore) : StoresIn demoMems (Lens.id _) demoRels w where
  store := by intro w m hm; simp only [demoMems, List.mem_singleton] at hm; subst hm; rfl
  rels := by
    intro w p cs h
    have hp : p = "likes" ∨ p = "tall" := by
      by_cases h1 : p = "likes"
      · exact .inl h1
      · by_cases h2 : p = "tall"
        · exact .inr h2
        · simp [demoRels, Dict.get, Ne.symm h1, Ne.symm h2] at h
    rcases hp with rfl | rfl
    · have : cs = ["who", "what"] := by simpa [demoRels, Dict.get] using h.symm
      subst this; rfl
    · have : cs = ["who"] := by simpa [demoRels, Dict.get] using h.symm
      subst this; rfl

/-- Three stored facts, one of them twice, one with a variable. -/
def demoHist : List (Binding × Query) :=
  [([("X", .str "ann")], [("likes", [.var "X", .str "tea"]), ("tall", [.str "bob"])]),
   ([], [("likes", [.str "bob", .str "tea"])]), ([], [("tall", [.str "bob"])])]

theorem demoHist_ok : HistoryOk demoRels demoHist := by
  intro bq hbq a ha
  simp only [demoHist, List.mem_cons, List.not_mem_nil, or_false] at hbq
  have hp : ∀ s : String, Plain (.str s) := fun s => ⟨by simp, rfl, rfl⟩
  rcases hbq with rfl | rfl | rfl <;> simp only [List.mem_cons, List.not_mem_nil, or_false] at ha
  · rcases ha with rfl | rfl
    · exact ⟨["who", "what"], rfl, by decide, rfl, by intro v hv; simp at hv; rcases hv with rfl | rfl <;> exact hp _⟩
    · exact ⟨["who"], rfl, by decide, rfl, by intro v hv; simp at hv; subst hv; exact hp _⟩
  · subst ha
    exact ⟨["who", "what"], rfl, by decide, rfl, by intro v hv; simp at hv; rcases hv with rfl | rfl <;> exact hp _⟩
  · subst ha
    exact ⟨["who"], rfl, by decide, rfl, by intro v hv; simp at hv; subst hv; exact hp _⟩

example : NotReserved SimpleStore demoRels := by
  refine ⟨rfl, rfl, fun p f h => ?_⟩
  by_cases h1 : p = "likes"
  · subst h1; exact absurd h (by simp [coreTable, Dict.get])
  · by_cases h2 : p = "tall"
    · subst h2; exact absurd h (by simp [coreTable, Dict.get])
    · simp [demoRels, Dict.get, Ne.symm h1, Ne.symm h2]

/-- The stored facts are read back. -/
example : (match runStores demoMems 2 demoHist SimpleStore.clear with
    | .ok w () => (solverAt (modelOf demoMems) 1).solve (toQuery [("likes", [.var "X", .str "tea"]), ("tall", [.var "X"])]) [] w
    | _ => .oof).map (fun out => out) =
    (match runStores demoMems 2 demoHist SimpleStore.clear with
      | .ok w () => .ok w (.rows [[("X", .str "bob")]])
      | _ => .oof) := by decide +kernel

end Verif

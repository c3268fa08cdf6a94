import Verif.SqlMemory
import Verif.Props.Sql
import Verif.Props.Memory

/-!
# C90. What is stored in a database is found

`SimpleMemoryModule` keeps its facts in an SQLite database. This file joins C18 (storing and finding facts) to C85 (what the SQL statements do).
-/

namespace Verif.Sql

variable {W : Type}

/-- The model has the core module's `store`, and its only relations for the predicates in `rels` are those of a module on a database; whatever is in that
database. -/
structure StoresInDb (ms : List (Module W)) (d : Dialect) (l : Lens W Db) (rels : Dict (List String)) (w : W) : Prop where
  store : ∀ s, NotDefined ms (l.put s w) "store"
  rels : ∀ s p cs, rels.get p = some cs → findRelations (modelOf ms) (l.put s w) p = [dbRelation d l p cs]

theorem StoresInDb.put {ms : List (Module W)} {d : Dialect} {l : Lens W Db} {rels : Dict (List String)} {w : W} (h : StoresInDb ms d l rels w) (s : Db) :
    StoresInDb ms d l rels (l.put s w) :=
  ⟨fun s' => by rw [l.put_put]; exact h.store s', fun s' => by rw [l.put_put]; exact h.rels s'⟩

theorem StoresInDb.store_here {ms : List (Module W)} {d : Dialect} {l : Lens W Db} {rels : Dict (List String)} {w : W} (h : StoresInDb ms d l rels w) :
    NotDefined ms w "store" := by
  have := h.store (l.get w)
  rwa [l.put_get] at this

theorem StoresInDb.rels_here {ms : List (Module W)} {d : Dialect} {l : Lens W Db} {rels : Dict (List String)} {w : W} (h : StoresInDb ms d l rels w) :
    ∀ p cs, rels.get p = some cs → findRelations (modelOf ms) w p = [dbRelation d l p cs] := by
  have := h.rels (l.get w)
  rwa [l.put_get] at this

/-- Numbers and texts, with which SQL can compare. -/
def Storable (v : Value) : Prop := (∃ q, v = .num q) ∨ ∃ s, v = .str s

theorem Storable.plain {v : Value} (h : Storable v) : Plain v := by
  rcases h with ⟨q, rfl⟩ | ⟨s, rfl⟩ <;> exact ⟨by simp, rfl, rfl⟩

theorem Storable.bindable {v : Value} (h : Storable v) : bindable v = true := by
  rcases h with ⟨q, rfl⟩ | ⟨s, rfl⟩ <;> rfl

/-- The history stores numbers and texts, as many as the relation has columns. -/
def StorableHistory (rels : Dict (List String)) (hist : List (Binding × Query)) : Prop :=
  ∀ bq ∈ hist, ∀ a ∈ bq.2, ∃ cs, rels.get a.1 = some cs ∧ a.2.length = cs.length ∧ ∀ v ∈ a.2, Storable (bindVars bq.1 v)

/-- The tables of the database have the rows of the log. -/
def Contains (rels : Dict (List String)) (db : Db) (log : List LogRecord) : Prop :=
  ∀ t cs, rels.get t = some cs → db (fold t.toList) = some ⟨chars cs, rowsOf log t, fun _ _ => false⟩

/-- The records are rows of numbers and texts. -/
def StorableLog (rels : Dict (List String)) (log : List LogRecord) : Prop :=
  ∀ r ∈ log, ∃ cs, rels.get r.table = some cs ∧ r.values.length = cs.length ∧ ∀ v ∈ r.values, Storable v

section
variable {ms : List (Module W)} {d : Dialect} {l : Lens W Db} {rels : Dict (List String)}

theorem Contains.stores {db : Db} {log : List LogRecord} (h : Contains rels db log) (hl : StorableLog rels log) :
    Stores rels (memoryDb rels log) db := by
  intro t cs ht
  refine ⟨rowsOf log t, by simp [memoryDb_get, ht], h t cs ht, fun row hrow => ?_⟩
  simp only [rowsOf, List.mem_map, List.mem_filter, decide_eq_true_eq] at hrow
  obtain ⟨r, ⟨hr, rfl⟩, rfl⟩ := hrow
  obtain ⟨cs', h1, h2, _⟩ := hl r hr
  rw [ht] at h1
  cases h1
  exact h2

theorem rowsOf_snoc (log : List LogRecord) (r : LogRecord) (t : String) :
    rowsOf (log ++ [r]) t = if r.table = t then rowsOf log t ++ [r.values] else rowsOf log t := by
  by_cases h : r.table = t <;> simp [rowsOf, List.filter_append, h]

/-- Every relation has a column. -/
def HasColumns (rels : Dict (List String)) : Prop := ∀ p cs, rels.get p = some cs → cs ≠ []

/-- One row is written. -/
theorem dbWrite_run (hsame : ∀ v u, d.same v u = decide (v = u)) (hs : Schema d rels) (hc : HasColumns rels) {w : W} {log : List LogRecord}
    (h : Contains rels (l.get w) log) (hl : StorableLog rels log) {p : String} {cs : List String} (hp : rels.get p = some cs) {vs : List Value}
    (hlen : vs.length = cs.length) (hv : ∀ v ∈ vs, Storable v) :
    ∃ db', dbWrite d l p cs vs w = .ok (l.put db' w) () ∧ Contains rels db' (log ++ [⟨p, cs, vs⟩]) := by
  obtain ⟨sdb', db', h1, h2, h3⟩ := (C85_memory_effects hsame hs (h.stores hl) hp (hc p cs hp) (fun v hv' => (hv v hv').bindable)).2.1 hlen
  refine ⟨db', by simp only [dbWrite]; rw [show cs.map String.toList = chars cs from rfl, h1], fun t cs' ht => ?_⟩
  obtain ⟨rows, g1, g2, _⟩ := h3 t cs' ht
  rw [g2]
  have : sdb'.get t = some (rowsOf (log ++ [⟨p, cs, vs⟩]) t) := by
    simp only [SqlDb.insert, memoryDb_get, hp, Option.map_some, Except.ok.injEq] at h2
    rw [← h2, Dict.get_set, rowsOf_snoc]
    by_cases e : p = t
    · subst e; simp
    · simp [e, memoryDb_get, ht]
  rw [g1] at this
  cases this
  rfl

/-- What `store` does to the log. -/
def storeLog (rels : Dict (List String)) (b : Binding) (atoms : Query) : List LogRecord :=
  atoms.map fun a => ⟨a.1, (rels.get a.1).getD [], a.2.map (bindVars b)⟩

theorem storeLoop_db (hsame : ∀ v u, d.same v u = decide (v = u)) (hs : Schema d rels) (hc : HasColumns rels)
    {ctx : Ctx W} {n : Nat} (hctx : ctx.solver = solverAt (modelOf ms) (n + 1)) (b : Binding) {atoms : Query}
    (ha : ∀ a ∈ atoms, ∃ cs, rels.get a.1 = some cs ∧ a.2.length = cs.length ∧ ∀ v ∈ a.2, Storable (bindVars b v)) {w : W} {log : List LogRecord}
    (hm : StoresInDb ms d l rels w) (h : Contains rels (l.get w) log) (hl : StorableLog rels log) :
    ∃ w', storeLoop ctx (bindVarsList b (atoms.map toAtom)) w = .ok w' () ∧ StoresInDb ms d l rels w' ∧ Contains rels (l.get w') (log ++ storeLog rels b atoms) ∧
      StorableLog rels (log ++ storeLog rels b atoms) := by
  induction atoms generalizing w log with
  | nil => exact ⟨w, rfl, hm, by simpa [storeLog] using h, by simpa [storeLog] using hl⟩
  | cons a atoms ih =>
    obtain ⟨p, args⟩ := a
    obtain ⟨cs, hp, hlen, hv⟩ := ha (p, args) (by simp)
    have hv' : ∀ v ∈ args.map (bindVars b), Storable v := by
      intro v hv'
      obtain ⟨u, hu, rfl⟩ := List.mem_map.1 hv'
      exact hv u hu
    obtain ⟨db', h1, h2⟩ := dbWrite_run hsame hs hc h hl hp (vs := args.map (bindVars b)) (by simpa using hlen) hv'
    have hw : ctx.solver.writeAtom (.tuple (.str p :: bindVarsList b args)) w = .ok (l.put db' w) () := by
      rw [hctx]
      show writeAtom.go _ _ p _ w = _
      unfold writeAtom.go
      rw [M.bind_ok (M.gets_run _ w), hm.rels_here p cs hp]
      dsimp only [writeRelations]
      simp only [dbRelation, bindVarsList_eq_map]
      rw [M.bind_ok h1]
      rfl
    have hl' : StorableLog rels (log ++ [⟨p, cs, args.map (bindVars b)⟩]) := by
      intro r hr
      rcases List.mem_append.1 hr with hr | hr
      · exact hl r hr
      · rw [List.mem_singleton] at hr
        subst hr
        exact ⟨cs, hp, by simpa using hlen, hv'⟩
    obtain ⟨w', g1, g0, g2, g3⟩ := ih (fun a ha' => ha a (List.mem_cons_of_mem _ ha')) (w := l.put db' w) (hm.put db') (by rw [l.get_put]; exact h2) hl'
    refine ⟨w', ?_, g0, by simpa [storeLog, hp] using g2, by simpa [storeLog, hp] using g3⟩
    simp only [List.map_cons, bindVarsList, storeLoop, toAtom, bindVars]
    rw [M.bind_ok hw, g1]

/-- **C90** (storing) `store` sends an insert for each of its atoms, in order, with the bound variables replaced by their values; afterwards the tables
have these rows at the end. It has one answer, the binding itself. -/
theorem C90_stored (hsame : ∀ v u, d.same v u = decide (v = u)) (hs : Schema d rels) (hc : HasColumns rels)
    (b : Binding) {atoms : Query} (ha : ∀ a ∈ atoms, ∃ cs, rels.get a.1 = some cs ∧ a.2.length = cs.length ∧ ∀ v ∈ a.2, Storable (bindVars b v))
    {w : W} (hm : StoresInDb ms d l rels w) {log : List LogRecord} (h : Contains rels (l.get w) log) (hl : StorableLog rels log) (n : Nat) :
    ∃ w', (solverAt (modelOf ms) (n + 2)).solve (storeQuery atoms) b w = .ok w' (.rows [b]) ∧ StoresInDb ms d l rels w' ∧
      Contains rels (l.get w') (log ++ storeLog rels b atoms) ∧ StorableLog rels (log ++ storeLog rels b atoms) := by
  obtain ⟨w', h1, h0, h2, h3⟩ := storeLoop_db (ctx := ⟨"store", [], [toQuery atoms], b, solverAt (modelOf ms) (n + 1)⟩) hsame hs hc rfl b ha hm h hl
  refine ⟨w', ?_, h0, h2, h3⟩
  rw [storeQuery, solve_core (f := coreStore) hm.store_here (by rfl) (by decide)]
  have hcs : coreStore (dbValues [toQuery atoms] b)
      ⟨"store", [], [toQuery atoms], b, solverAt (modelOf ms) (n + 1)⟩ w = .ok w' (.rows [[.none]]) := by
    have hdb : dbValues [toQuery atoms] b = [toQuery atoms] := rfl
    rw [hdb]
    unfold coreStore
    simp only [nth, List.getElem?_cons_zero]
    show (M.bind (M.pure (toQuery atoms)) _) w = _
    simp only [M.bind, M.pure, toQuery]
    simp only [toQuery] at h1
    rw [M.bind_ok h1]
    rfl
  rw [hcs]
  dsimp only
  have he : extendRow b [toQuery atoms] [.none] b false = .ok (b, false) := by
    rw [extendRow_none (v := toQuery atoms) rfl]; rfl
  have := resultsOf_one (by rfl) w' he
  rw [dedupRows_singleton]
  exact this

theorem runStores_db (hsame : ∀ v u, d.same v u = decide (v = u)) (hs : Schema d rels) (hc : HasColumns rels)
    {hist : List (Binding × Query)} (hh : StorableHistory rels hist) (n : Nat) {w : W} {log : List LogRecord}
    (hm : StoresInDb ms d l rels w) (h : Contains rels (l.get w) log) (hl : StorableLog rels log) :
    ∃ w', runStores ms (n + 2) hist w = .ok w' () ∧ StoresInDb ms d l rels w' ∧ Contains rels (l.get w') (log ++ storedLog rels hist) ∧
      StorableLog rels (log ++ storedLog rels hist) := by
  induction hist generalizing w log with
  | nil => exact ⟨w, rfl, hm, by simpa [storedLog] using h, by simpa [storedLog] using hl⟩
  | cons bq hist ih =>
    obtain ⟨b, atoms⟩ := bq
    obtain ⟨w1, h1, h0, h2, h3⟩ := C90_stored hsame hs hc b (hh (b, atoms) (by simp)) hm h hl n
    obtain ⟨w', g1, g0, g2, g3⟩ := ih (fun bq hbq => hh bq (List.mem_cons_of_mem _ hbq)) h0 h2 h3
    refine ⟨w', ?_, g0, by simpa [storedLog, storeLog] using g2, by simpa [storedLog, storeLog] using g3⟩
    simp only [runStores, h1]
    exact g1

/-! ## Queries -/

/-- All values of the binding are numbers and texts. -/
def StorableB (b : Binding) : Prop := ∀ x v, b.get x = some v → Storable v

/-- The constants of the query are numbers and texts. -/
def StorableQuery (q : Query) : Prop := ∀ a ∈ q, ∀ v ∈ a.2, v.isVar = false → Storable v

theorem dbValues_bindable {args : List Value} {b : Binding} (ha : ∀ v ∈ args, v.isVar = false → Storable v) (hb : StorableB b) :
    ∀ v ∈ dbValues args b, bindable v = true := by
  intro v hv
  obtain ⟨a, ha', rfl⟩ := List.mem_map.1 hv
  cases a with
  | var x =>
    dsimp only
    cases h : b.get x with
    | none => rfl
    | some u => exact (hb x u h).bindable
  | _ => exact (ha _ ha' rfl).bindable

theorem dbQuery_run (hsame : ∀ v u, d.same v u = decide (v = u)) (hs : Schema d rels) (hc : HasColumns rels) {w : W} {log : List LogRecord}
    (h : Contains rels (l.get w) log) (hl : StorableLog rels log) {p : String} {cs : List String} (hp : rels.get p = some cs) {vs : List Value}
    (hv : ∀ v ∈ vs, bindable v = true) : dbQuery d l p cs vs w = .ok w (.rows ((rowsOf log p).filter (rowMatches vs))) := by
  have h1 := (C85_memory_effects hsame hs (h.stores hl) hp (hc p cs hp) hv).1
  simp only [dbQuery, M.bind_run, M.gets_run]
  rw [show cs.map String.toList = chars cs from rfl, h1, SqlDb.select, memoryDb_get, hp]
  rfl

theorem single_same {mods1 mods2 : List (Module W)} {api1 api2 : SolverApi W} {p : String} {args : List Value} {b : Binding} {w : W} {r1 r2 : Relation W}
    (hp : p ≠ "$disjunction") (h1 : findRelations mods1 w p = [r1]) (h2 : findRelations mods2 w p = [r2])
    (h : ∀ c1 c2, r1.query (dbValues args b) c1 w = r2.query (dbValues args b) c2 w) :
    solveSingle api1 mods1 (toAtom (p, args)) b w = solveSingle api2 mods2 (toAtom (p, args)) b w := by
  simp only [toAtom, solveSingle, solveSingle.go, hp, if_false, findRelationValues, M.bind_run, M.gets_run, h1, h2, queryRelations]
  rw [h _ ⟨r2.predicate, r2.columns, args, b, api2⟩]

/-- The tables with the rows of the log. -/
def tableModel (W : Type) (rels : Dict (List String)) (log : List LogRecord) : List (Module W) := [tableModule W (memoryDb rels log)]

theorem tables_program (hres : NotReserved W rels) {log : List LogRecord} (hl : StorableLog rels log) :
    ProgramOk W (relAr rels) [memoryDb rels log] [] := by
  have hsome : ∀ p k, relAr rels p = some k → ∃ cs, rels.get p = some cs ∧ cs.length = k := by
    intro p k hp
    simpa [relAr] using hp
  refine ⟨⟨by simp [relAr, hres.1], by simp [relAr, hres.2.1], fun p f hpf => by simp [relAr, hres.2.2 p f hpf]⟩, ?_, ?_, by simp⟩
  · intro p k hp
    obtain ⟨cs, hcs, _⟩ := hsome p k hp
    exact .inl ⟨memoryDb rels log, by simp, by simp [Dict.has, memoryDb_get, hcs]⟩
  · intro p k hp db hdb rows hrows row hrow
    simp only [List.mem_singleton] at hdb
    subst hdb
    obtain ⟨cs, hcs, hk⟩ := hsome p k hp
    rw [memoryDb_get, hcs] at hrows
    simp only [Option.map_some, Option.some.injEq] at hrows
    subst hrows
    simp only [rowsOf, List.mem_map, List.mem_filter, decide_eq_true_eq] at hrow
    obtain ⟨r, ⟨hr, rfl⟩, rfl⟩ := hrow
    obtain ⟨cs', h1, h2, h3⟩ := hl r hr
    rw [hcs] at h1
    cases h1
    exact ⟨by omega, fun v hv => (h3 v hv).plain⟩

theorem collect_same {f g : Binding → M W SolOut} {w : W} {bs : List Binding} (h : ∀ b ∈ bs, f b w = g b w ∧ ∃ o, g b w = .ok w o)
    (acc : List Binding) : collect f bs acc w = collect g bs acc w := by
  induction bs generalizing acc with
  | nil => rfl
  | cons b bs ih =>
    obtain ⟨h1, o, h2⟩ := h b (by simp)
    have ih := fun acc => ih (fun b' hb' => h b' (by simp [hb'])) acc
    simp only [collect]
    rw [M.bind_ok h2, M.bind_ok (h1.trans h2)]
    match o with
    | .rows rs => exact ih _
    | .iter _ 0 => exact ih _
    | .iter _ (_ + 1) => rfl

/-- A query gets from the database what it gets from tables with the same rows. -/
theorem query_same (hres : NotReserved W rels) (hsame : ∀ v u, d.same v u = decide (v = u)) (hs : Schema d rels)
    (hc : HasColumns rels) {w : W} (hm : StoresInDb ms d l rels w) {log : List LogRecord} (h : Contains rels (l.get w) log) (hl : StorableLog rels log)
    (n : Nat) (q : Query) (hq : QueryOk (relAr rels) q) (hsq : StorableQuery q) (b : Binding) (hb : StorableB b) :
    (solverAt (modelOf ms) (n + 1)).solve (toQuery q) b w = (solverAt (modelOf (tableModel W rels log)) (n + 1)).solve (toQuery q) b w := by
  have hok := tables_program hres hl
  have hfact : FactModules (relAr rels) w (tableModel W rels log) [memoryDb rels log] := tableModules_fact (relAr rels) w [memoryDb rels log]
  have single : ∀ a : String × List Value, relAr rels a.1 = some a.2.length → (∀ v ∈ a.2, v.isVar = false → Storable v) → ∀ b, StorableB b →
      solveSingle (solverAt (modelOf ms) n) (modelOf ms) (toAtom a) b w =
        solveSingle (solverAt (modelOf (tableModel W rels log)) n) (modelOf (tableModel W rels log)) (toAtom a) b w := by
    intro a ha hv b hb
    obtain ⟨p, args⟩ := a
    obtain ⟨cs, hcs, hlen⟩ : ∃ cs, rels.get p = some cs ∧ cs.length = args.length := by simpa [relAr] using ha
    have hne : p ≠ "$disjunction" := by
      rintro rfl
      rw [hres.1] at hcs
      cases hcs
    refine single_same hne (hm.rels_here p cs hcs) (r2 := tableRelation W p (rowsOf log p)) ?_ fun c1 c2 => ?_
    · have hcore : (coreModule W).relations w p = none := core_none hok ha w
      simp [modelOf, tableModel, findRelations, hcore, tableModule, memoryDb_get, hcs]
    · show dbQuery d l p cs _ w = _
      rw [dbQuery_run hsame hs hc h hl hcs (dbValues_bindable hv hb)]
      rfl
  induction q generalizing b with
  | nil => rfl
  | cons a q ih =>
    have ha := hq a (by simp)
    have hsa := hsq a (by simp)
    have s1 := single a ha.1 hsa b hb
    cases q with
    | nil => exact s1
    | cons a2 q =>
      show solveAtoms _ _ (toAtom a :: toAtom a2 :: q.map toAtom) b w = solveAtoms _ _ (toAtom a :: toAtom a2 :: q.map toAtom) b w
      have plainB : ∀ b, StorableB b → PlainB b := fun b hb x v hx => (hb x v hx).plain
      have hqa : QueryOk (relAr rels) [a] := by
        intro a' ha'
        rw [List.mem_singleton] at ha'
        subst ha'
        exact ha
      obtain ⟨bs, e1, e2, _⟩ := C05_tables_exact hfact hok hqa (plainB b hb) n
      have e1' : solveSingle (solverAt (modelOf (tableModel W rels log)) n) (modelOf (tableModel W rels log)) (toAtom a) b w = .ok w (.rows bs) := e1
      have hbs : ∀ b' ∈ bs, StorableB b' := by
        intro b' hb' x v hx
        obtain ⟨g1, g2, g3⟩ := e2 b' hb'
        cases hbx : b.get x with
        | some u =>
          have := g1 x u hbx
          rw [hx] at this
          cases this
          exact hb x _ hbx
        | none =>
          have hxv : x ∈ queryVars [a] := by
            have := (g2 x).1 (by simp [Dict.has, hx])
            simpa [Dict.has, hbx] using this
          obtain ⟨db, hdb, rows, hrows, hmem⟩ := g3 a (by simp)
          rw [List.mem_singleton] at hdb
          subst hdb
          obtain ⟨cs, hcs, _⟩ : ∃ cs, rels.get a.1 = some cs ∧ cs.length = a.2.length := by simpa [relAr] using ha.1
          rw [memoryDb_get, hcs] at hrows
          simp only [Option.map_some, Option.some.injEq] at hrows
          subst hrows
          simp only [rowsOf, List.mem_map, List.mem_filter, decide_eq_true_eq] at hmem
          obtain ⟨r, ⟨hr, _⟩, hval⟩ := hmem
          obtain ⟨_, _, _, hst⟩ := hl r hr
          have hxa : .var x ∈ a.2 := by
            simp only [queryVars, List.flatMap_cons, List.flatMap_nil, List.append_nil, List.mem_filterMap] at hxv
            obtain ⟨u, hu, hux⟩ := hxv
            cases u with
            | var y => simp only [Option.some.injEq] at hux; subst hux; exact hu
            | _ => simp at hux
          have : inst (asg b') (.var x) ∈ r.values := by
            rw [hval]
            exact List.mem_map.2 ⟨_, hxa, rfl⟩
          have hst := hst _ this
          simpa [inst, asg, hx] using hst
      simp only [solveAtoms]
      rw [M.bind_ok e1', M.bind_ok (s1.trans e1')]
      dsimp only
      refine collect_same (fun b' hb' => ?_) []
      have hq' : QueryOk (relAr rels) (a2 :: q) := fun a' ha' => hq a' (List.mem_cons_of_mem _ ha')
      refine ⟨ih hq' (fun a' ha' => hsq a' (List.mem_cons_of_mem _ ha')) b' (hbs b' hb'), ?_⟩
      obtain ⟨bs', f1, _⟩ := C05_tables_exact hfact hok hq' (plainB b' (hbs b' hb')) n
      exact ⟨_, f1⟩

/-- **C90** (finding) After any history of stores into empty tables of a database, any query over these returns exactly the assignments under which
every atom is one of the stored tuples, each once. All of this goes through the SQL statements. -/
theorem C90_read_back (hres : NotReserved W rels) (hsame : ∀ v u, d.same v u = decide (v = u)) (hs : Schema d rels)
    (hc : HasColumns rels) {hist : List (Binding × Query)} (hh : StorableHistory rels hist) {w : W} (hm : StoresInDb ms d l rels w)
    (hw : NewDb rels (l.get w)) {q : Query} (hq : QueryOk (relAr rels) q) (hsq : StorableQuery q) {b : Binding} (hb : StorableB b) (n n' : Nat) :
    ∃ w' bs, runStores ms (n + 2) hist w = .ok w' () ∧
      (solverAt (modelOf ms) (n' + 1)).solve (toQuery q) b w' = .ok w' (.rows bs) ∧
      (∀ b' ∈ bs, Extends b b' ∧ (∀ x, b'.has x = true ↔ b.has x = true ∨ x ∈ queryVars q) ∧
        AllInLog (storedLog rels hist) q (asg b')) ∧
      (∀ σ : Assignment, (∀ x, Plain (σ x)) → Agrees σ b → AllInLog (storedLog rels hist) q σ →
        ∃ b' ∈ bs, Extends b b' ∧ ∀ x ∈ queryVars q, b'.get x = some (σ x)) ∧
      bs.Pairwise fun b1 b2 => ∃ x, b1.get x ≠ b2.get x := by
  obtain ⟨w', h1, h0, h2, h3⟩ := runStores_db hsame hs hc hh n (w := w) (log := []) hm (fun t cs ht => hw t cs ht) (by intro r hr; simp at hr)
  rw [List.nil_append] at h2 h3
  obtain ⟨bs, g1, g2, g3, g4⟩ := C05_tables_exact (tableModules_fact (relAr rels) w' [memoryDb rels (storedLog rels hist)]) (tables_program hres h3) hq
    (b := b) (fun x v hx => (hb x v hx).plain) n'
  refine ⟨w', bs, h1, (query_same hres hsame hs hc h0 h2 h3 n' q hq hsq b hb).trans g1, fun b' hb' => ?_, fun σ hp hσ hall => ?_, g4⟩
  · obtain ⟨x, y, z⟩ := g2 b' hb'
    exact ⟨x, y, (allStored_memory hq _).1 z⟩
  · exact g3 σ hp hσ ((allStored_memory hq _).2 hall)

/-- **C90** (what can not be stored) A list can not be stored: the insert raises, and nothing has changed. -/
theorem C90_list_raises (hs : Schema d rels) (hc : HasColumns rels) (b : Binding) {p : String} {args : List Value}
    {cs : List String} (hp : rels.get p = some cs) (hlen : args.length = cs.length) (hv : ∃ v ∈ args, bindable (bindVars b v) = false) {w : W} (hm : StoresInDb ms d l rels w) (n : Nat) :
    ∃ e, (solverAt (modelOf ms) (n + 2)).solve (storeQuery [(p, args)]) b w = .err w e := by
  obtain ⟨o1, o2⟩ := own_columns hs hp
  have hne : chars cs ≠ [] := by simpa [chars] using hc p cs hp
  have hvne : args.map (bindVars b) ≠ [] := by
    intro e
    have := hc p cs hp
    rw [List.map_eq_nil_iff] at e
    subst e
    exact this (List.length_eq_zero_iff.1 hlen.symm)
  obtain ⟨v, hv1, hv2⟩ := hv
  obtain ⟨e, he⟩ := C85_insert_raises (db := l.get w) (hs.tables_named p cs hp) o1 hne hvne (.inr ⟨_, List.mem_map.2 ⟨v, hv1, rfl⟩, hv2⟩)
  refine ⟨e, ?_⟩
  rw [storeQuery, solve_core (f := coreStore) hm.store_here (by rfl) (by decide)]
  have hw : (solverAt (modelOf ms) (n + 1)).writeAtom (.tuple (.str p :: bindVarsList b args)) w = .err w e := by
    show writeAtom.go _ _ p _ w = _
    unfold writeAtom.go
    rw [M.bind_ok (M.gets_run _ w), hm.rels_here p cs hp]
    dsimp only [writeRelations]
    simp only [dbRelation, bindVarsList_eq_map]
    rw [M.bind_err]
    simp only [dbWrite]
    rw [show cs.map String.toList = chars cs from rfl, he]
  have hcs : coreStore (dbValues [toQuery [(p, args)]] b)
      ⟨"store", [], [toQuery [(p, args)]], b, solverAt (modelOf ms) (n + 1)⟩ w = .err w e := by
    have hdb : dbValues [toQuery [(p, args)]] b = [toQuery [(p, args)]] := rfl
    rw [hdb]
    unfold coreStore
    simp only [nth, List.getElem?_cons_zero]
    show (M.bind (M.pure (toQuery [(p, args)])) _) w = _
    simp only [M.bind, M.pure, toQuery, List.map_cons, List.map_nil, bindVarsList, storeLoop, toAtom, bindVars]
    rw [M.bind_err (M.bind_err hw)]
  rw [hcs]

/-- **C90** (the dialog context) The functions with which the relations of the memory modules are modelled (`sqlQuery`, `sqlWrite`) do what the
statements for that relation do: from the same tables they give the same rows, and a row that is written is written in both. -/
theorem C90_same_module {V : Type} (hsame : ∀ v u, d.same v u = decide (v = u)) (hs : Schema d rels) (hc : HasColumns rels) {k : Lens V SqlDb} {v : V} {w : W}
    (h : Stores rels (k.get v) (l.get w)) {ctx : Ctx V} {cs : List String} (hp : rels.get ctx.predicate = some cs) {vs : List Value}
    (hv : ∀ x ∈ vs, bindable x = true) :
    (∃ rows, sqlQuery k vs ctx v = .ok v (.rows rows) ∧ dbQuery d l ctx.predicate cs vs w = .ok w (.rows rows)) ∧
    (vs.length = cs.length → ∃ v' w', sqlWrite k vs ctx v = .ok v' () ∧ dbWrite d l ctx.predicate cs vs w = .ok w' () ∧ Stores rels (k.get v') (l.get w')) := by
  obtain ⟨h1, h2, -⟩ := C85_memory_effects hsame hs h hp (hc _ cs hp) hv
  refine ⟨?_, fun hlen => ?_⟩
  · obtain ⟨rows, e1, -, -⟩ := h _ cs hp
    have e3 : (k.get v).select ctx.predicate vs = .ok (rows.filter (rowMatches vs)) := by rw [SqlDb.select, e1]
    refine ⟨rows.filter (rowMatches vs), ?_, ?_⟩
    · unfold sqlQuery
      rw [M.bind_ok (M.gets_run _ _), e3]
      rfl
    · unfold dbQuery
      rw [M.bind_ok (M.gets_run _ _), show cs.map String.toList = chars cs from rfl, h1, e3]
      rfl
  · obtain ⟨sdb', db', g1, g2, g3⟩ := h2 hlen
    refine ⟨k.put sdb' v, l.put db' w, ?_, ?_, by rw [k.get_put, l.get_put]; exact g3⟩
    · unfold sqlWrite sqlDo
      simp only [g2]
    · simp only [dbWrite]
      rw [show cs.map String.toList = chars cs from rfl, g1]

end

namespace Ex

/-- The facts of the dialog context in a database. -/
def dialogMods : List (Module Db) := [dbModule dialect (Lens.id _) dialogTables]

theorem dialog_stores (w : Db) : StoresInDb dialogMods dialect (Lens.id _) dialogTables w where
  store := by intro w m hm; simp only [dialogMods, List.mem_singleton] at hm; subst hm; rfl
  rels := by intro w p cs h; rcases dialog_get h with ⟨rfl, rfl⟩ | ⟨rfl, rfl⟩ <;> rfl

theorem dialog_notReserved : NotReserved Db dialogTables := by
  refine ⟨rfl, rfl, fun p f h => ?_⟩
  cases e : dialogTables.get p with
  | none => rfl
  | some cs => rcases dialog_get e with ⟨rfl, rfl⟩ | ⟨rfl, rfl⟩ <;> exact absurd h (by simp [coreTable, Dict.get])

theorem dialog_columns : HasColumns dialogTables := by
  intro p cs h
  rcases dialog_get h with ⟨rfl, rfl⟩ | ⟨rfl, rfl⟩ <;> simp

/-- Three facts, one with a variable. -/
def dialogHist : List (Binding × Query) :=
  [([("X", .str "e1")], [("dialog_isa", [.var "X", .str "river"]), ("context", [.str "question"])]), ([], [("dialog_isa", [.str "e2", .str "sea"])])]

theorem dialogHist_ok : StorableHistory dialogTables dialogHist := by
  intro bq hbq a ha
  have hstr : ∀ s : String, Storable (.str s) := fun s => .inr ⟨s, rfl⟩
  simp only [dialogHist, List.mem_cons, List.not_mem_nil, or_false] at hbq
  rcases hbq with rfl | rfl <;> simp only [List.mem_cons, List.not_mem_nil, or_false] at ha
  · rcases ha with rfl | rfl
    · exact ⟨["entity", "type"], rfl, rfl, by intro v hv; simp at hv; rcases hv with rfl | rfl <;> exact hstr _⟩
    · exact ⟨["name"], rfl, rfl, by intro v hv; simp at hv; subst hv; exact hstr _⟩
  · subst ha
    exact ⟨["entity", "type"], rfl, rfl, by intro v hv; simp at hv; rcases hv with rfl | rfl <;> exact hstr _⟩

/-- Which things of which kind have been talked about? (the case of `C90_read_back`) -/
def dialogQuery : Query := [("dialog_isa", [.var "E", .var "T"]), ("context", [.str "question"])]

example := C90_read_back dialog_notReserved (fun _ _ => rfl) dialog_schema dialog_columns dialogHist_ok (dialog_stores _) dialog_new (q := dialogQuery)
  (by
    intro a ha
    simp only [dialogQuery, List.mem_cons, List.not_mem_nil, or_false] at ha
    rcases ha with rfl | rfl
    · exact ⟨rfl, by intro v hv h; simp at hv; rcases hv with rfl | rfl <;> simp [Value.isVar] at h⟩
    · exact ⟨rfl, by intro v hv _; simp at hv; subst hv; exact ⟨by simp, rfl, rfl⟩⟩)
  (by
    intro a ha v hv h
    simp only [dialogQuery, List.mem_cons, List.not_mem_nil, or_false] at ha
    rcases ha with rfl | rfl
    · simp at hv; rcases hv with rfl | rfl <;> simp [Value.isVar] at h
    · simp at hv; subst hv; exact .inr ⟨_, rfl⟩)
  (b := []) (by intro x v h; cases h) 0 0

/-- Two facts are stored in the empty tables. -/
example := C90_stored (fun _ _ => rfl) dialog_schema dialog_columns [("X", .str "e1")]
  (atoms := [("dialog_isa", [.var "X", .str "river"]), ("context", [.str "question"])])
  (dialogHist_ok ([("X", .str "e1")], _) (by simp [dialogHist])) (w := dialogDb) (dialog_stores _) (log := []) (fun t cs h => dialog_new t cs h) (by intro r hr; simp at hr) 0

/-- The answers. -/
example : (match runStores dialogMods 2 dialogHist dialogDb with
    | .ok w () => match (solverAt (modelOf dialogMods) 1).solve (toQuery dialogQuery) [] w with
      | .ok _ (.rows bs) => bs
      | _ => []
    | _ => []) = [[("E", .str "e1"), ("T", .str "river")], [("E", .str "e2"), ("T", .str "sea")]] := by decide +kernel

example := C90_list_raises dialog_schema dialog_columns [] (p := "context") (args := [.list [.num 1]]) rfl rfl ⟨_, List.mem_singleton_self _, rfl⟩
  (dialog_stores dialogDb) 0

/-- Beside an inference module. -/
example : StoresInDb [inferenceModule (Lens.fst InfState Db), dbModule dialect (Lens.snd InfState Db) dialogTables] dialect (Lens.snd InfState Db) dialogTables
    (InfState.init, dialogDb) where
  store := by
    intro s m hm
    simp only [List.mem_cons, List.not_mem_nil, or_false] at hm
    rcases hm with rfl | rfl <;> rfl
  rels := by intro s p cs h; rcases dialog_get h with ⟨rfl, rfl⟩ | ⟨rfl, rfl⟩ <;> rfl

/-- The dialog context as it begins (`dialogInit`) and the tables that its `clear` makes. -/
example := C90_same_module (d := dialect) (rels := dialogTables) (k := Lens.id SqlDb) (l := Lens.id Db) (v := dialogInit) (w := dialogDb)
  (fun _ _ => rfl) dialog_schema dialog_columns (fun t cs h => by
    rcases dialog_get h with ⟨rfl, rfl⟩ | ⟨rfl, rfl⟩
    · exact ⟨[], rfl, dialog_new "dialog_isa" _ rfl, by simp⟩
    · exact ⟨[], rfl, dialog_new "context" _ rfl, by simp⟩)
  (ctx := ⟨"dialog_isa", ["entity", "type"], [.str "e1", .str "river"], [], solverAt (modelOf []) 0⟩) (cs := ["entity", "type"]) rfl
  (vs := [.str "e1", .str "river"]) (by decide)

end Ex

end Verif.Sql

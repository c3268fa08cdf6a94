import Verif.DataSource
import Verif.ReprLemmas

/-!
# C23, C24, C26, C27, C28: data sources
-/

namespace Verif

/-! ## C23: `SimpleDataSource` is a log of records -/

/-- Operations on the data source. -/
inductive StoreOp where
  | insert (table : String) (columns : List String) (values : List Value)
  | clear

/-- Perform an operation with the model's functions. -/
def StoreOp.run (s : SimpleStore) : StoreOp → SimpleStore
  | .insert t c v => s.insert t c v
  | .clear => SimpleStore.clear

/-- A record of the log: the columns with their values. -/
structure LogRecord where
  table : String
  columns : List String
  values : List Value

/-- The log after an operation (specification). -/
def logStep (log : List LogRecord) : StoreOp → List LogRecord
  | .insert t c v => log ++ [⟨t, c, v⟩]
  | .clear => []

/-- The value for a column: that of the last position with this column name and a value other than `None` (specification). -/
def cellOf (columns : List String) (values : List Value) (c : String) : Option Value :=
  (((columns.zip values).reverse.find? fun kv => decide (kv.1 = c ∧ kv.2 ≠ .none))).map Prod.snd

/-- The record does not contradict the values asked for (specification). -/
def agreesWith (columns : List String) (values : List Value) (r : LogRecord) : Prop :=
  ∀ c v u, cellOf columns values c = some v → cellOf r.columns r.values c = some u → u = v

theorem createDictFrom_get (d : Dict Value) (ks : List String) (vs : List Value) (c : String) :
    (createDictFrom d ks vs).get c = match cellOf ks vs c with
      | some v => some v
      | none => d.get c := by
  induction ks generalizing d vs with
  | nil => simp [createDictFrom, cellOf]
  | cons k ks ih =>
    cases vs with
    | nil => simp [createDictFrom, cellOf]
    | cons v vs =>
      simp only [createDictFrom]
      rw [ih]
      have hc : cellOf (k :: ks) (v :: vs) c = match cellOf ks vs c with
          | some u => some u
          | none => if k = c ∧ v ≠ .none then some v else none := by
        simp only [cellOf, List.zip_cons_cons, List.reverse_cons, List.find?_append, List.find?_singleton]
        cases h : List.find? (fun kv => decide (kv.1 = c ∧ kv.2 ≠ .none)) (ks.zip vs).reverse with
        | some x => simp
        | none =>
          by_cases hh : k = c ∧ v ≠ .none
          · simp [hh]
          · simp only [hh, decide_false, Option.none_or, Option.map_none, if_false, Bool.false_eq_true]
      rw [hc]
      cases cellOf ks vs c with
      | some u => rfl
      | none =>
        dsimp only
        by_cases hv : v = .none
        · simp [hv]
        · by_cases hk : k = c
          · subst hk; simp [hv]
          · simp [hv, hk, Dict.get_set]

theorem createDict_get (ks : List String) (vs : List Value) (c : String) : (createDict ks vs).get c = cellOf ks vs c := by
  rw [createDict, createDictFrom_get]
  cases cellOf ks vs c <;> rfl

theorem createDictFrom_nodup (d : Dict Value) (ks : List String) (vs : List Value) (h : d.keys.Nodup) :
    (createDictFrom d ks vs).keys.Nodup := by
  induction ks generalizing d vs with
  | nil => simpa [createDictFrom] using h
  | cons k ks ih =>
    cases vs with
    | nil => simpa [createDictFrom] using h
    | cons v vs =>
      simp only [createDictFrom]
      apply ih
      split
      · exact h
      · exact Dict.nodup_keys_set h k v

theorem recordOk_iff (columns : List String) (values : List Value) (r : LogRecord) :
    SimpleStore.recordOk (createDict columns values) (createDict r.columns r.values) = true ↔ agreesWith columns values r := by
  simp only [SimpleStore.recordOk, List.all_eq_true, agreesWith]
  constructor
  · intro h c v u hv hu
    have := h (c, v) (Dict.mem_of_get (by rw [createDict_get]; exact hv))
    simpa [createDict_get, hu] using this
  · rintro h ⟨c, v⟩ hm
    have hv : cellOf columns values c = some v := by
      rw [← createDict_get]; exact Dict.get_of_mem (createDictFrom_nodup [] _ _ (by simp [Dict.keys])) hm
    dsimp only
    rw [createDict_get]
    cases hu : cellOf r.columns r.values c with
    | none => rfl
    | some u => simpa using h c v u hv hu

/-- The row of a record for the given columns; `none` if one of them has no value (specification). -/
def rowOf (columns : List String) (r : LogRecord) : Option (List Value) :=
  columns.mapM (cellOf r.columns r.values)

theorem projectRecord_eq (columns : List String) (r : LogRecord) :
    SimpleStore.projectRecord (createDict r.columns r.values) columns = match rowOf columns r with
      | some row => .ok row
      | none => .error .keyError := by
  induction columns with
  | nil => rfl
  | cons c cs ih =>
    simp only [SimpleStore.projectRecord, createDict_get, rowOf, List.mapM_cons]
    cases cellOf r.columns r.values c with
    | none => rfl
    | some v =>
      simp only [rowOf] at ih
      rw [ih]
      cases cs.mapM (cellOf r.columns r.values) <;> rfl

open Classical in
/-- The records of a table that agree with the values asked for, in order (specification). -/
noncomputable def matching (log : List LogRecord) (table : String) (columns : List String) (values : List Value) : List LogRecord :=
  log.filter fun r => decide (r.table = table ∧ agreesWith columns values r)

/-- The store represents the log. -/
def Represents (s : SimpleStore) (log : List LogRecord) : Prop :=
  ∀ t, (s.get t).getD [] = (log.filter fun r => decide (r.table = t)).map (fun r => createDict r.columns r.values)

theorem represents_step {s : SimpleStore} {log : List LogRecord} (h : Represents s log) (op : StoreOp) :
    Represents (op.run s) (logStep log op) := by
  cases op with
  | clear => intro t; simp [StoreOp.run, SimpleStore.clear, logStep]
  | insert table c v =>
    intro t
    simp only [StoreOp.run, SimpleStore.insert, logStep, List.filter_append, List.map_append, ← h t]
    have hs : ((if s.has table = true then s else s.set table []).get table).getD [] = (s.get table).getD [] := by
      split
      · rfl
      · rename_i hh
        have : s.get table = none := by simpa [Dict.has] using hh
        simp [this]
    rw [Dict.get_set, hs]
    by_cases e : table = t
    · subst e; simp
    · have : ((if s.has table = true then s else s.set table []).get t) = s.get t := by
        split
        · rfl
        · rw [Dict.get_set, if_neg e]
      simp [e, this]

theorem represents_run (ops : List StoreOp) {s : SimpleStore} {log : List LogRecord} (h : Represents s log) :
    Represents (ops.foldl StoreOp.run s) (ops.foldl logStep log) := by
  induction ops generalizing s log with
  | nil => exact h
  | cons op ops ih => exact ih (represents_step h op)

open Classical in
theorem selectLoop_eq (columns : List String) (values : List Value) (rs : List LogRecord) :
    SimpleStore.selectLoop columns (createDict columns values) (rs.map fun r => createDict r.columns r.values) =
      match (rs.filter fun r => decide (agreesWith columns values r)).mapM (rowOf columns) with
      | some rows => .ok rows
      | none => .error .keyError := by
  induction rs with
  | nil => rfl
  | cons r rs ih =>
    simp only [List.map_cons, SimpleStore.selectLoop, recordOk_iff]
    by_cases h : agreesWith columns values r
    · simp only [h, if_true, projectRecord_eq, List.filter_cons, decide_true, List.mapM_cons]
      cases rowOf columns r with
      | none => rfl
      | some row =>
        dsimp only
        rw [ih]
        cases (rs.filter fun r => decide (agreesWith columns values r)).mapM (rowOf columns) <;> rfl
    · simp only [h, if_false, List.filter_cons, decide_false, Bool.false_eq_true, ih]

/-- **C23** After any history of inserts and clears, a select returns the projections of exactly those records inserted since the last
clear that do not contradict the values asked for, in insertion order. If one of these records has no value for a selected column,
the select raises a `KeyError`. -/
theorem C23_select_log (ops : List StoreOp) (table : String) (columns : List String) (values : List Value) :
    SimpleStore.select table columns values (ops.foldl StoreOp.run SimpleStore.clear) =
      match (matching (ops.foldl logStep []) table columns values).mapM (rowOf columns) with
      | some rows => .ok rows
      | none => .error .keyError := by
  have h := represents_run ops (s := SimpleStore.clear) (log := []) (by intro t; simp [SimpleStore.clear]) table
  generalize hs : ops.foldl StoreOp.run SimpleStore.clear = s at h
  generalize ops.foldl logStep [] = log at h
  have hm : matching log table columns values =
      (log.filter fun r => decide (r.table = table)).filter fun r => @decide (agreesWith columns values r) (Classical.propDecidable _) := by
    rw [List.filter_filter]
    apply List.filter_congr
    intro r _
    by_cases h1 : r.table = table <;> by_cases h2 : agreesWith columns values r <;> simp [h1, h2]
  rw [hm, ← selectLoop_eq, ← h]
  simp only [SimpleStore.select]
  cases s.get table with
  | none => rfl
  | some records => rfl

/-- **C23** In particular: a record with a value for every selected column is found with these values exactly if it does not
contradict the values asked for, and never after a later clear. -/
theorem C23_found_iff (ops : List StoreOp) (table : String) (columns : List String) (values : List Value) {rows : List (List Value)}
    (h : SimpleStore.select table columns values (ops.foldl StoreOp.run SimpleStore.clear) = .ok rows) (row : List Value) :
    row ∈ rows ↔ ∃ r ∈ ops.foldl logStep [], r.table = table ∧ agreesWith columns values r ∧ rowOf columns r = some row := by
  rw [C23_select_log] at h
  have key : ∀ (rs : List LogRecord) (rows : List (List Value)), rs.mapM (rowOf columns) = some rows →
      ∀ row, row ∈ rows ↔ ∃ r ∈ rs, rowOf columns r = some row := by
    intro rs
    induction rs with
    | nil => intro rows h row; simp at h; subst h; simp
    | cons r rs ih =>
      intro rows h row
      simp only [List.mapM_cons] at h
      cases h1 : rowOf columns r with
      | none => rw [h1] at h; simp at h
      | some x =>
        rw [h1] at h
        cases h2 : rs.mapM (rowOf columns) with
        | none => rw [h2] at h; simp at h
        | some xs =>
          rw [h2] at h
          simp at h
          subst h
          simp only [List.mem_cons, ih xs h2 row]
          constructor
          · rintro (rfl | ⟨r', hr', e⟩)
            · exact ⟨r, .inl rfl, h1⟩
            · exact ⟨r', .inr hr', e⟩
          · rintro ⟨r', rfl | hr', e⟩
            · rw [h1] at e; cases e; exact .inl rfl
            · exact .inr ⟨r', hr', e⟩
  cases hm : (matching (ops.foldl logStep []) table columns values).mapM (rowOf columns) with
  | none => rw [hm] at h; simp at h
  | some rows' =>
    rw [hm] at h
    simp only [Except.ok.injEq] at h
    subst h
    rw [key _ _ hm row]
    simp only [matching, List.mem_filter, decide_eq_true_eq]
    constructor
    · rintro ⟨r, ⟨h1, h2, h3⟩, h4⟩; exact ⟨r, h1, h2, h3, h4⟩
    · rintro ⟨r, h1, h2, h3, h4⟩; exact ⟨r, ⟨h1, h2, h3⟩, h4⟩

/-- A history with a clear in the middle, two tables and a filter. -/
example : SimpleStore.select "age" ["who", "n"] [.str "ann", .none]
    ([StoreOp.insert "age" ["who", "n"] [.str "old", .num 1], .clear, .insert "age" ["who", "n"] [.str "ann", .num 3],
      .insert "x" ["y"] [.num 0], .insert "age" ["who", "n"] [.str "bob", .num 5],
      .insert "age" ["n", "who"] [.num 4, .str "ann"]].foldl StoreOp.run SimpleStore.clear) =
    .ok [[.str "ann", .num 3], [.str "ann", .num 4]] := by decide +kernel

/-- **C23** (limit) A record stored with `None` makes every later select of that column raise, also when other records match. -/
theorem C23_none_raises (table column : String) (v : Value) (hv : v ≠ .none) :
    SimpleStore.select table [column] [v]
      ([StoreOp.insert table [column] [v], .insert table [column] [.none]].foldl StoreOp.run SimpleStore.clear) = .error .keyError := by
  simp [StoreOp.run, SimpleStore.insert, SimpleStore.clear, SimpleStore.select, createDict, createDictFrom, hv, Dict.has,
    SimpleStore.selectLoop, SimpleStore.recordOk, SimpleStore.projectRecord, Dict.set, Dict.get]

/-! ## C24: SQL text never contains data -/

/-- The two value lists have `None` at the same positions (specification). -/
def SameNones : List Value → List Value → Prop
  | [], [] => True
  | v :: vs, u :: us => (v = .none ↔ u = .none) ∧ SameNones vs us
  | _, _ => False

theorem whereLoop_spec (ph : List Char) (cs : List (List Char)) (vs : List Value) (text : List Char) (params : List Value) :
    ∃ t, whereLoop ph cs vs text params = (text ++ t, params ++ ((cs.zip vs).map Prod.snd).filter fun v => decide (v ≠ .none)) ∧
      ∀ us text' params', SameNones vs us → (whereLoop ph cs us text' params').1 = text' ++ t := by
  induction cs generalizing vs text params with
  | nil => exact ⟨[], by simp [whereLoop], fun us t p _ => by simp [whereLoop]⟩
  | cons c cs ih =>
    cases vs with
    | nil =>
      refine ⟨[], by simp [whereLoop], fun us t p h => ?_⟩
      cases us with
      | nil => simp [whereLoop]
      | cons => simp [SameNones] at h
    | cons v vs =>
      by_cases hv : v = .none
      · obtain ⟨t, h1, h2⟩ := ih vs text params
        refine ⟨t, by simp [whereLoop, hv, h1], fun us t' p' h => ?_⟩
        cases us with
        | nil => simp [SameNones] at h
        | cons u us => simp [whereLoop, h.1.1 hv, h2 us t' p' h.2]
      · obtain ⟨t, h1, h2⟩ := ih vs (text ++ ([' ', 'A', 'N', 'D', ' '] ++ c ++ ['='] ++ ph)) (params ++ [v])
        refine ⟨[' ', 'A', 'N', 'D', ' '] ++ c ++ ['='] ++ ph ++ t, by
          simp only [whereLoop, hv, if_false, h1]
          simp [hv], fun us t' p' h => ?_⟩
        cases us with
        | nil => simp [SameNones] at h
        | cons u us =>
          have hu : u ≠ .none := fun e => hv (h.1.2 e)
          simp [whereLoop, hu, h2 us _ _ h.2]

/-- **C24** The text of a `SELECT` is the same for any two value lists with `None` at the same positions. -/
theorem C24_select_text (ph table : List Char) (columns : List (List Char)) (vs us : List Value) (h : SameNones vs us) :
    (selectSql ph table columns vs).1 = (selectSql ph table columns us).1 := by
  obtain ⟨t, h1, h2⟩ := whereLoop_spec ph columns vs ['T', 'R', 'U', 'E'] []
  simp only [selectSql, h1, h2 us _ _ h]

/-- **C24** The parameters of a `SELECT` are the values that are not `None`, in the order of the columns. -/
theorem C24_select_params (ph table : List Char) (columns : List (List Char)) (vs : List Value) (h : vs.length ≤ columns.length) :
    (selectSql ph table columns vs).2 = vs.filter fun v => decide (v ≠ .none) := by
  obtain ⟨t, h1, h2⟩ := whereLoop_spec ph columns vs ['T', 'R', 'U', 'E'] []
  simp only [selectSql, h1, List.nil_append, List.map_snd_zip h]

theorem joinWith_count (x : Char) (sep : List Char) (xs : List (List Char)) (hs : sep.count x = 0) (h : ∀ c ∈ xs, c.count x = 0) :
    (joinWith sep xs).count x = 0 := by
  induction xs with
  | nil => rfl
  | cons a xs ih =>
    cases xs with
    | nil => simpa [joinWith] using h a (by simp)
    | cons b xs =>
      simp only [joinWith, List.count_append, h a (by simp), hs, ih fun c hc => h c (List.mem_cons_of_mem _ hc)]

theorem whereLoop_count (x : Char) (hx : x = '?' ∨ x = '%') (ph : List Char) (hph : ph.count x = 1) (cs : List (List Char))
    (hcs : ∀ c ∈ cs, c.count x = 0) (vs : List Value) (text : List Char) (params : List Value) (h : text.count x = params.length) :
    (whereLoop ph cs vs text params).1.count x = (whereLoop ph cs vs text params).2.length := by
  induction cs generalizing vs text params with
  | nil => simpa [whereLoop] using h
  | cons c cs ih =>
    cases vs with
    | nil => simpa [whereLoop] using h
    | cons v vs =>
      simp only [whereLoop]
      split
      · exact ih (fun c hc => hcs c (List.mem_cons_of_mem _ hc)) vs _ _ h
      · apply ih (fun c hc => hcs c (List.mem_cons_of_mem _ hc))
        have h1 : List.count x [' ', 'A', 'N', 'D', ' '] = 0 := by rcases hx with rfl | rfl <;> decide
        have h2 : List.count x ['='] = 0 := by rcases hx with rfl | rfl <;> decide
        simp only [List.count_append, h, hph, hcs c (by simp), h1, h2, List.length_append, List.length_singleton]

/-- **C24** A `SELECT` has exactly as many placeholders as parameters (`x` is the character that marks a placeholder: `?` for
sqlite, `%` for the others), if table and column names do not contain this character. -/
theorem C24_select_placeholders (x : Char) (ph : List Char) (hph : (x = '?' ∧ ph = ['?']) ∨ (x = '%' ∧ ph = ['%', 's']))
    (table : List Char) (ht : table.count x = 0) (columns : List (List Char)) (hc : ∀ c ∈ columns, c.count x = 0) (vs : List Value) :
    (selectSql ph table columns vs).1.count x = (selectSql ph table columns vs).2.length := by
  have hx : x = '?' ∨ x = '%' := hph.elim (fun h => .inl h.1) fun h => .inr h.1
  have hp1 : ph.count x = 1 := by rcases hph with ⟨rfl, rfl⟩ | ⟨rfl, rfl⟩ <;> decide
  have h0 : List.count x ['T', 'R', 'U', 'E'] = 0 := by rcases hx with rfl | rfl <;> decide
  have h1 : List.count x ['S', 'E', 'L', 'E', 'C', 'T', ' '] = 0 := by rcases hx with rfl | rfl <;> decide
  have h2 : List.count x [' ', 'F', 'R', 'O', 'M', ' '] = 0 := by rcases hx with rfl | rfl <;> decide
  have h3 : List.count x [' ', 'W', 'H', 'E', 'R', 'E', ' '] = 0 := by rcases hx with rfl | rfl <;> decide
  have h4 : List.count x [','] = 0 := by rcases hx with rfl | rfl <;> decide
  simp only [selectSql, List.count_append, h1, h2, h3, ht, joinWith_count x _ _ h4 hc,
    whereLoop_count x hx ph hp1 columns hc vs _ [] h0, Nat.zero_add]

/-- **C24** An `INSERT` passes all values as parameters; its text depends on their number only, and has one `?` for each. -/
theorem C24_insert (table : List Char) (columns : List (List Char)) (vs us : List Value) (h : vs.length = us.length) :
    (insertSql table columns vs).1 = (insertSql table columns us).1 ∧ (insertSql table columns vs).2 = vs ∧
    (table.count '?' = 0 → (∀ c ∈ columns, c.count '?' = 0) → (insertSql table columns vs).1.count '?' = vs.length) := by
  have hm : ∀ vs us : List Value, vs.length = us.length → (vs.map fun _ => ['?']) = us.map fun _ => ['?'] := by
    intro vs
    induction vs with
    | nil => intro us h; cases us <;> simp_all
    | cons v vs ih => intro us h; cases us with
      | nil => simp at h
      | cons u us => simp [ih us (by simpa using h)]
  refine ⟨by simp only [insertSql, hm vs us h], rfl, fun ht hc => ?_⟩
  have hj : ∀ vs : List Value, (joinWith [',', ' '] (vs.map fun _ => ['?'])).count '?' = vs.length := by
    intro vs
    induction vs with
    | nil => rfl
    | cons v vs ih =>
      cases vs with
      | nil => rfl
      | cons u vs =>
        simp only [List.map_cons, joinWith, List.count_append] at ih ⊢
        rw [ih]
        simp only [List.length_cons]
        have : List.count '?' ['?'] = 1 := rfl
        have : List.count '?' [',', ' '] = 0 := rfl
        omega
  have h4 : List.count '?' [','] = 0 := rfl
  simp only [insertSql, List.count_append, hj, ht, joinWith_count '?' _ _ h4 hc]
  have h1 : List.count '?' ['I', 'N', 'S', 'E', 'R', 'T', ' ', 'O', 'R', ' ', 'I', 'G', 'N', 'O', 'R', 'E', ' ', 'I', 'N', 'T', 'O', ' '] = 0 := rfl
  have h2 : List.count '?' [' ', '('] = 0 := rfl
  have h3 : List.count '?' [')', ' ', 'V', 'A', 'L', 'U', 'E', 'S', ' ', '('] = 0 := rfl
  have h5 : List.count '?' [')'] = 0 := rfl
  omega

/-- **C24** A `DELETE` passes all values as parameters; its text does not depend on them, and has one `?` per column. -/
theorem C24_delete (table : List Char) (columns : List (List Char)) (vs us : List Value) :
    (deleteSql table columns vs).1 = (deleteSql table columns us).1 ∧ (deleteSql table columns vs).2 = vs ∧
    (table.count '?' = 0 → (∀ c ∈ columns, c.count '?' = 0) → (deleteSql table columns vs).1.count '?' = columns.length) := by
  refine ⟨rfl, rfl, fun ht hc => ?_⟩
  have hj : ∀ cs : List (List Char), (∀ c ∈ cs, c.count '?' = 0) →
      (joinWith ['A', 'N', 'D', ' '] (cs.map fun c => c ++ [' ', '=', ' ', '?', ' '])).count '?' = cs.length := by
    intro cs
    induction cs with
    | nil => intro _; rfl
    | cons c cs ih =>
      intro h
      have e1 : List.count '?' [' ', '=', ' ', '?', ' '] = 1 := rfl
      have e2 : List.count '?' ['A', 'N', 'D', ' '] = 0 := rfl
      have e3 := h c (by simp)
      have ih := ih fun c hc => h c (List.mem_cons_of_mem _ hc)
      cases cs with
      | nil => simp only [List.map_cons, List.map_nil, joinWith, List.count_append, List.length_cons, List.length_nil]; omega
      | cons c2 cs =>
        simp only [List.map_cons, joinWith, List.count_append, List.length_cons] at ih ⊢
        omega
  have h1 : List.count '?' ['D', 'E', 'L', 'E', 'T', 'E', ' ', 'F', 'R', 'O', 'M', ' '] = 0 := rfl
  have h2 : List.count '?' [' ', 'W', 'H', 'E', 'R', 'E', ' '] = 0 := rfl
  simp only [deleteSql, List.count_append, hj columns hc, ht, h1, h2, Nat.zero_add]

example : SameNones [.str "'; DROP TABLE x; --", .none] [.str "ann", .none] := by simp [SameNones]
example : selectSql ['?'] ['t'] [['a'], ['b']] [.str "x' OR 1=1", .none] =
    ("SELECT a,b FROM t WHERE TRUE AND a=?".toList, [.str "x' OR 1=1"]) := by decide +kernel

/-! ## C26: the SPARQL cache -/

/-- Run a history of selects. -/
def sparqlHistory {K : Type} [DecidableEq K] (hash : List Char → K) (path : Bool) (writable : K → Bool)
    (server : List SparqlRequest → SparqlRequest → Except Err (List (List Value))) (w : SparqlWorld K) (rs : List SparqlRequest) :
    SparqlWorld K :=
  rs.foldl (fun w r => (sparqlSelect hash path writable server r w).1) w

theorem strRow_prefix {a b : List Value} (ha : legalList a = true) (hb : legalList b = true) {r r' : List Char}
    (h : strRow a ++ r = strRow b ++ r') : a = b ∧ r = r' := by
  simp only [strRow, List.cons_append, List.append_assoc, List.cons.injEq, true_and, List.nil_append] at h
  exact (repr_unique_aux _).2 a b ']' (.inl rfl) r r' (Nat.lt_succ_self _) ha hb h

/-- A request whose table name contains no `[` and whose values contain only legal variable names. -/
def SparqlRequest.Ok (r : SparqlRequest) : Prop := '[' ∉ r.table.toList ∧ legalList r.values = true

theorem legalList_strs (cs : List String) : legalList (cs.map .str) = true := by
  induction cs with
  | nil => rfl
  | cons c cs ih => simp [legalList, legal, ih]

/-- **C26** Different requests have different cache texts, so that they share a cache file only if the hash collides. -/
theorem C26_cache_text_injective {r r' : SparqlRequest} (h : r.Ok) (h' : r'.Ok) (he : cacheText r = cacheText r') : r = r' := by
  obtain ⟨t, c, v⟩ := r
  obtain ⟨t', c', v'⟩ := r'
  simp only [cacheText, List.append_assoc] at he
  have h1 := split_unique (p := fun x => decide (x ≠ '[')) (a := t.toList) (b := t'.toList)
    (fun x hx => by simp; rintro rfl; exact h.1 hx) (fun x hx => by simp; rintro rfl; exact h'.1 hx)
    (by simp [strRow, StopsAt]) (by simp [strRow, StopsAt]) he
  have h2 := strRow_prefix (legalList_strs c) (legalList_strs c') h1.2
  have h3 := strRow_injective h.2 h'.2 h2.2
  have h4 : t = t' := String.toList_inj.1 h1.1
  have h5 : c = c' := (List.map_inj_right (f := Value.str) (fun a b h => by simpa using h)).1 h2.1
  subst h3; subst h4; subst h5; rfl

section
variable {K : Type} [DecidableEq K] {hash : List Char → K} {path : Bool} {writable : K → Bool}
  {server : List SparqlRequest → SparqlRequest → Except Err (List (List Value))}

theorem sparqlSelect_keeps (r : SparqlRequest) (w : SparqlWorld K) {k : K} {res : List (List Value)} (h : w.files k = some res) :
    (sparqlSelect hash path writable server r w).1.files k = some res := by
  unfold sparqlSelect
  dsimp only
  split
  · exact h
  · rename_i hn
    split
    · exact h
    · split
      · rename_i hp
        simp only [Bool.and_eq_true] at hp
        simp only [hp.1, if_true] at hn
        dsimp only
        split
        · rename_i e; subst e; rw [h] at hn; simp at hn
        · exact h
      · exact h

theorem sparqlHistory_keeps (rs : List SparqlRequest) (w : SparqlWorld K) {k : K} {res : List (List Value)} (h : w.files k = some res) :
    (sparqlHistory hash path writable server w rs).files k = some res := by
  induction rs generalizing w with
  | nil => exact h
  | cons r rs ih => exact ih _ (sparqlSelect_keeps r w h)

/-- **C26** With a cache directory that can be written, a request that was answered once is answered the same ever after, without
contacting the server, whatever requests come in between. -/
theorem C26_repeat {r : SparqlRequest} {w w1 : SparqlWorld K} {res : List (List Value)} (hpath : path = true)
    (hw : writable (hash (cacheText r)) = true) (h : sparqlSelect hash path writable server r w = (w1, .ok res))
    (rs : List SparqlRequest) :
    sparqlSelect hash path writable server r (sparqlHistory hash path writable server w1 rs) =
      (sparqlHistory hash path writable server w1 rs, .ok res) := by
  have h1 : w1.files (hash (cacheText r)) = some res := by
    unfold sparqlSelect at h
    simp only [hpath, if_true, hw, Bool.and_self] at h
    split at h
    · rename_i res' hf
      simp only [Prod.mk.injEq, Except.ok.injEq] at h
      rw [← h.1, ← h.2]; exact hf
    · split at h
      · simp at h
      · simp only [Prod.mk.injEq, Except.ok.injEq] at h
        rw [← h.1, ← h.2]; simp
  have h2 := sparqlHistory_keeps (hash := hash) (path := path) (writable := writable) (server := server) rs w1 h1
  simp only [sparqlSelect, hpath, if_true] at h2 ⊢
  rw [h2]

/-- **C26** Without a cache directory every select contacts the server. -/
theorem C26_no_cache (r : SparqlRequest) (w : SparqlWorld K) :
    (sparqlSelect hash false writable server r w).1.sent = w.sent ++ [r] ∧
    (sparqlSelect hash false writable server r w).2 = server w.sent r := by
  unfold sparqlSelect
  simp only [Bool.false_eq_true, if_false, Bool.false_and]
  cases server w.sent r <;> exact ⟨rfl, rfl⟩

/-- What is in the cache is what the server answers to the request with that text. -/
def CacheSound (hash : List Char → K) (answer : SparqlRequest → Except Err (List (List Value))) (w : SparqlWorld K) : Prop :=
  ∀ k res, w.files k = some res → ∃ r : SparqlRequest, r.Ok ∧ hash (cacheText r) = k ∧ answer r = .ok res

theorem sparqlSelect_sound {answer : SparqlRequest → Except Err (List (List Value))} {w : SparqlWorld K}
    (hs : CacheSound hash answer w) {r : SparqlRequest} (hr : r.Ok) :
    CacheSound hash answer (sparqlSelect hash path writable (fun _ => answer) r w).1 := by
  unfold sparqlSelect
  dsimp only
  split
  · exact hs
  · split
    · exact hs
    · rename_i res hres
      split
      · intro k res' hk
        dsimp only at hk
        split at hk
        · rename_i e
          simp only [Option.some.injEq] at hk
          subst hk
          exact ⟨r, hr, e.symm, hres⟩
        · exact hs k res' hk
      · exact hs

/-- **C26** Transparency: if the server's answer depends only on the request and the hash does not collide on cache texts, then after
any history of selects from an empty cache, a select returns what the server would answer. -/
theorem C26_transparent (hinj : ∀ a b, hash a = hash b → a = b) (answer : SparqlRequest → Except Err (List (List Value)))
    (rs : List SparqlRequest) (hrs : ∀ r ∈ rs, r.Ok) (r : SparqlRequest) (hr : r.Ok) (sent : List SparqlRequest) :
    (sparqlSelect hash path writable (fun _ => answer) r
      (sparqlHistory hash path writable (fun _ => answer) { files := fun _ => none, sent := sent } rs)).2 = answer r := by
  have hsound : ∀ (rs : List SparqlRequest) (w : SparqlWorld K), (∀ r ∈ rs, r.Ok) → CacheSound hash answer w →
      CacheSound hash answer (sparqlHistory hash path writable (fun _ => answer) w rs) := by
    intro rs
    induction rs with
    | nil => intro w _ h; exact h
    | cons r rs ih =>
      intro w hok h
      exact ih _ (fun r hr => hok r (List.mem_cons_of_mem _ hr)) (sparqlSelect_sound h (hok r (by simp)))
  have hs := hsound rs { files := fun _ => none, sent := sent } hrs (by intro k res h; simp at h)
  generalize sparqlHistory hash path writable (fun _ => answer) { files := fun _ => none, sent := sent } rs = w at hs
  unfold sparqlSelect
  dsimp only
  split
  · rename_i res hf
    cases path with
    | false => simp at hf
    | true =>
      simp only [if_true] at hf
      obtain ⟨r', h1, h2, h3⟩ := hs _ _ hf
      have := C26_cache_text_injective h1 hr (hinj _ _ h2)
      subst this
      exact h3.symm
  · cases answer r with
    | error e => rfl
    | ok res => dsimp only; split <;> rfl

/-- **C26** If the cache can be written and the server never fails, no request is sent twice. -/
theorem C26_at_most_once (hserver : ∀ l r, ∃ res, server l r = .ok res)
    (rs : List SparqlRequest) :
    (sparqlHistory hash true (fun _ => true) server { files := fun _ => none, sent := [] } rs).sent.Nodup := by
  have key : ∀ (rs : List SparqlRequest) (w : SparqlWorld K), w.sent.Nodup →
      (∀ r ∈ w.sent, (w.files (hash (cacheText r))).isSome = true) →
      (sparqlHistory hash true (fun _ => true) server w rs).sent.Nodup := by
    intro rs
    induction rs with
    | nil => intro w h _; exact h
    | cons r rs ih =>
      intro w hnd hall
      refine ih _ ?_ ?_
      · unfold sparqlSelect
        simp only [if_true, Bool.and_self]
        obtain ⟨res, hres⟩ := hserver w.sent r
        rw [hres]
        split
        · exact hnd
        · rename_i hn
          dsimp only
          rw [List.nodup_append]
          refine ⟨hnd, by simp, ?_⟩
          intro a ha b hb e
          simp only [List.mem_singleton] at hb
          subst hb; subst e
          have := hall a ha
          rw [hn] at this
          simp at this
      · unfold sparqlSelect
        simp only [if_true, Bool.and_self]
        obtain ⟨res, hres⟩ := hserver w.sent r
        rw [hres]
        split
        · exact hall
        · intro r' hr'
          dsimp only at hr' ⊢
          split
          · rfl
          · rename_i hne
            rcases List.mem_append.1 hr' with h | h
            · exact hall r' h
            · simp only [List.mem_singleton] at h
              subst h; exact absurd rfl hne
  exact key rs _ (by simp) (by simp)

end

/-- Two different requests, one of them with a quote and a bracket in its value. -/
example : SparqlRequest.Ok ⟨"wdt:P19", ["id", "id"], [.str "a', 'b]", .none]⟩ ∧
    cacheText ⟨"wdt:P19", ["id", "id"], [.str "a', 'b]", .none]⟩ ≠ cacheText ⟨"wdt:P19", ["id", "id"], [.str "a", .str "b]"]⟩ := by
  constructor
  · refine ⟨by decide, by decide⟩
  · decide +kernel

/-! ## C27: rows of the SPARQL source -/

theorem except_bind_ok {ε α β : Type} {x : Except ε α} {f : α → Except ε β} {b : β} (h : (x >>= f) = .ok b) :
    ∃ a, x = .ok a ∧ f a = .ok b := by
  cases x with
  | error e => simp [bind, Except.bind] at h
  | ok a => exact ⟨a, rfl, h⟩

/-- The cell that a row must have: the value that was given or else the server's value for the variable of the position
(specification). -/
def CellSpec (item : Dict (Dict String)) (given : Value) (var : String) (cell : Value) : Prop :=
  (given ≠ .none → cell = given) ∧
  (given = .none → ∃ d s, item.get var = some d ∧ d.get "value" = some s ∧ cell = .str s)

theorem resultCell_spec {item : Dict (Dict String)} {v c : Value} {lang : List Char} {i : Nat} {var : String}
    {columns : List String} {t : List Char} (ht : prepareTerm lang v i columns = .ok t)
    (hvar : String.ofList (termPrefix ++ showNat i).tail = var) (h : resultCell item v t = .ok c) : CellSpec item v var c := by
  unfold resultCell at h
  split at h
  · rename_i hv
    subst hv
    refine ⟨fun h => absurd rfl h, fun _ => ?_⟩
    simp only [prepareTerm, Except.ok.injEq] at ht
    subst ht
    unfold itemValue at h
    rw [hvar] at h
    split at h
    · simp at h
    · rename_i d hd
      split at h
      · simp at h
      · rename_i s hs
        simp only [Except.ok.injEq] at h
        exact ⟨d, s, hd, hs, h.symm⟩
  · rename_i hv
    simp only [Except.ok.injEq] at h
    exact ⟨fun _ => h.symm, fun e => absurd e hv⟩

/-- Rows and items correspond one to one, in order (specification). -/
def RowsSpec (v0 v1 : Value) : List (Dict (Dict String)) → List (List Value) → Prop
  | [], [] => True
  | item :: items, row :: rows => (∃ a b, row = [a, b] ∧ CellSpec item v0 "term0" a ∧ CellSpec item v1 "term1" b) ∧
      RowsSpec v0 v1 items rows
  | _, _ => False

theorem prepareResults_spec {v0 v1 : Value} {lang : List Char} {columns : List String} {t0 t1 : List Char}
    (ht0 : prepareTerm lang v0 0 columns = .ok t0) (ht1 : prepareTerm lang v1 1 columns = .ok t1)
    {items : List (Dict (Dict String))} {rows : List (List Value)} (h : prepareResults v0 v1 t0 t1 items = .ok rows) :
    RowsSpec v0 v1 items rows := by
  induction items generalizing rows with
  | nil => simp only [prepareResults, Except.ok.injEq] at h; subst h; trivial
  | cons item items ih =>
    simp only [prepareResults] at h
    obtain ⟨a, ha, h⟩ := except_bind_ok h
    obtain ⟨b, hb, h⟩ := except_bind_ok h
    obtain ⟨rs, hrs, h⟩ := except_bind_ok h
    simp only [Except.ok.injEq] at h
    subst h
    exact ⟨⟨a, b, rfl, resultCell_spec ht0 (by decide +kernel) ha, resultCell_spec ht1 (by decide +kernel) hb⟩, ih hrs⟩

/-- **C27** If a select succeeds, the server was asked once; there is one row of two columns per item of its response, in order;
a column whose value was given holds that value, and the other columns hold the server's value for the variable of the column
(`term0` for the first, `term1` for the second). -/
theorem C27_rows (lang : List Char) (http : List Char → HttpResponse) (r : SparqlRequest) {rows : List (List Value)}
    (h : doSelect lang http r = .ok rows) :
    ∃ v0 v1 rest items t0 t1 tv, r.values = v0 :: v1 :: rest ∧
      prepareTerm lang v0 0 r.columns = .ok t0 ∧ prepareTerm lang v1 1 r.columns = .ok t1 ∧
      (http (createQuery lang (prepareVariables v0 v1 t0 t1) tv t0 t1 r.table.toList)).bindings = some items ∧
      RowsSpec v0 v1 items rows := by
  unfold doSelect at h
  obtain ⟨v0, e0, h⟩ := except_bind_ok h
  obtain ⟨t0, ht0, h⟩ := except_bind_ok h
  obtain ⟨v1, e1, h⟩ := except_bind_ok h
  obtain ⟨t1, ht1, h⟩ := except_bind_ok h
  obtain ⟨tv, htv, h⟩ := except_bind_ok h
  have hvals : ∃ rest, r.values = v0 :: v1 :: rest := by
    cases hv : r.values with
    | nil => rw [hv] at e0; simp [idx] at e0
    | cons a as =>
      cases as with
      | nil => rw [hv] at e1; simp [idx] at e1
      | cons b as =>
        rw [hv] at e0 e1
        simp [idx] at e0 e1
        subst e0; subst e1; exact ⟨as, rfl⟩
  obtain ⟨rest, hvals⟩ := hvals
  dsimp only at h
  split at h
  · simp at h
  · split at h
    · simp at h
    · split at h
      · simp at h
      · split at h
        · simp at h
        · rename_i items hitems
          exact ⟨v0, v1, rest, items, t0, t1, tv, hvals, ht0, ht1, hitems, prepareResults_spec ht0 ht1 h⟩

/-- **C27** The query has the given terms around the table, and asks for exactly the variables of the positions that were not given
(or `*` if all were given). -/
theorem C27_query_variables (v0 v1 : Value) (t0 t1 : List Char) :
    (v0 = .none → v1 = .none → prepareVariables v0 v1 t0 t1 = [t0, t1]) ∧
    (v0 = .none → v1 ≠ .none → prepareVariables v0 v1 t0 t1 = [t0]) ∧
    (v0 ≠ .none → v1 = .none → prepareVariables v0 v1 t0 t1 = [t1]) ∧
    (v0 ≠ .none → v1 ≠ .none → prepareVariables v0 v1 t0 t1 = [['*']]) := by
  refine ⟨?_, ?_, ?_, ?_⟩ <;> intro h0 h1 <;> simp [prepareVariables, h0, h1]

example : doSelect ['e', 'n'] (fun _ => ⟨200, some [[("term1", [("type", "uri"), ("value", "u1")])], [("term1", [("value", "u2")])]]⟩)
    ⟨"wdt:P19", ["id", "id"], [.str "q42", .none]⟩ = .ok [[.str "q42", .str "u1"], [.str "q42", .str "u2"]] := by
  decide +kernel

/-! ## C28: CSV import -/

/-- The records that a file with the given rows must produce: for each non-empty row after the first non-empty one, the headers
and the cells, cut off at the number of headers (specification). -/
def csvRecords (rows : List (List String)) : List (List String × List String) :=
  match rows.filter fun r => !r.isEmpty with
  | [] => []
  | headers :: lines => lines.map fun line => (headers, line.take headers.length)

theorem csvLoop_lines {S : Type} (insert : List String → List String → S → S) (rows : List (List String)) (line : Nat)
    (headers : List String) (s : S) :
    csvLoop insert rows (line + 1) headers s =
      (((rows.filter fun r => !r.isEmpty).map fun l => (headers, l.take headers.length)).foldl (fun s r => insert r.1 r.2 s) s) := by
  induction rows generalizing line s with
  | nil => rfl
  | cons row rows ih =>
    simp only [csvLoop]
    cases row with
    | nil => simp [ih]
    | cons c cs =>
      have hz : ∀ (a b : List String), (a.zip b).map Prod.snd = b.take a.length := by
        intro a
        induction a with
        | nil => simp
        | cons x a ih => intro b; cases b <;> simp [ih]
      simp [ih, hz]

/-- **C28** Importing inserts exactly one record per non-empty line after the header, in file order, each pairing the headers with the
cells of the line. -/
theorem C28_csv_import {S : Type} (insert : List String → List String → S → S) (rows : List (List String)) (s : S) :
    csvImport insert rows s = (csvRecords rows).foldl (fun s r => insert r.1 r.2 s) s := by
  unfold csvImport csvRecords
  induction rows with
  | nil => rfl
  | cons row rows ih =>
    simp only [csvLoop]
    cases row with
    | nil => simpa using ih
    | cons c cs => simp [csvLoop_lines]

/-- **C28** The header of each inserted record is the header line, so that a cell is stored under the header above it; rows of the
right length are stored completely. -/
theorem C28_cells {rows : List (List String)} {headers : List String} {lines : List (List String)}
    (h : rows.filter (fun r => !r.isEmpty) = headers :: lines) (hlen : ∀ l ∈ lines, l.length = headers.length) :
    csvRecords rows = lines.map fun l => (headers, l) := by
  simp only [csvRecords, h]
  apply List.map_congr_left
  intro l hl
  rw [← hlen l hl, List.take_length]

/-- A file with blank lines before, between and after. -/
example : csvRecords [[], ["id", "name"], ["1", "ann"], [], ["2", "bob"], []] =
    [(["id", "name"], ["1", "ann"]), (["id", "name"], ["2", "bob"])] := by decide

end Verif

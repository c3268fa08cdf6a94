import Verif.Core
import Verif.Tables

/-!
# Data sources (`richard/data_source`) and the memory modules built on them
-/

namespace Verif

/-! ## The in-memory data source -/

/-- `SimpleDataSource.store`, `richard/data_source/SimpleDataSource.py:10`: per table the records, each a dictionary. -/
abbrev SimpleStore := Dict (List (Dict Value))

/-- The loop of `richard/data_source/SimpleDataSource.py:55-60` (`create_dict`), from a dictionary built so far. -/
def createDictFrom (d : Dict Value) : List String → List Value → Dict Value
  | k :: ks, v :: vs => createDictFrom (if v = .none then d else d.set k v) ks vs
  | _, _ => d

/-- Models `richard/data_source/SimpleDataSource.py:55-60` (`create_dict`). -/
def createDict (columns : List String) (values : List Value) : Dict Value := createDictFrom [] columns values

namespace SimpleStore

/-- Models `richard/data_source/SimpleDataSource.py:18-25` (`insert`). -/
def insert (table : String) (columns : List String) (values : List Value) (s : SimpleStore) : SimpleStore :=
  let record := createDict columns values
  let s := if s.has table then s else s.set table []
  s.set table ((s.get table).getD [] ++ [record])

/-- The test of `richard/data_source/SimpleDataSource.py:39-43` (`ok`). -/
def recordOk (values record : Dict Value) : Bool :=
  values.all fun kv => match record.get kv.1 with
    | some v => decide (v = kv.2)
    | none => true

/-- `[record[column] for column in columns]`, `richard/data_source/SimpleDataSource.py:45`. -/
def projectRecord (record : Dict Value) : List String → Except Err (List Value)
  | [] => .ok []
  | c :: cs => match record.get c with
    | none => .error .keyError
    | some v => match projectRecord record cs with
      | .error e => .error e
      | .ok vs => .ok (v :: vs)

/-- The loop of `richard/data_source/SimpleDataSource.py:38-46`. -/
def selectLoop (columns : List String) (values : Dict Value) : List (Dict Value) → Except Err (List (List Value))
  | [] => .ok []
  | r :: rs =>
    if recordOk values r then
      match projectRecord r columns with
      | .error e => .error e
      | .ok row => match selectLoop columns values rs with
        | .error e => .error e
        | .ok rows => .ok (row :: rows)
    else selectLoop columns values rs

/-- Models `richard/data_source/SimpleDataSource.py:29-48` (`select`). -/
def select (table : String) (columns : List String) (values : List Value) (s : SimpleStore) : Except Err (List (List Value)) :=
  match s.get table with
  | none => .ok []
  | some records => selectLoop columns (createDict columns values) records

/-- Models `richard/data_source/SimpleDataSource.py:51-52` (`clear`). -/
def clear : SimpleStore := []

end SimpleStore

/-! ## SQL statements -/

/-- Loop of `richard/data_source/Sqlite3DataSource.py:16-19`; `ph` is the placeholder (`?` for sqlite, `%s` for
`MySqlDataSource.py:16-19`, `PsycoPg2DataSource.py:18-21`, `PsycoPg3DataSource.py`). -/
def whereLoop (ph : List Char) : List (List Char) → List Value → List Char → List Value → List Char × List Value
  | c :: cs, v :: vs, text, params =>
    if v = .none then whereLoop ph cs vs text params
    else whereLoop ph cs vs (text ++ ([' ', 'A', 'N', 'D', ' '] ++ c ++ ['='] ++ ph)) (params ++ [v])
  | _, _, text, params => (text, params)

/-- Python's `sep.join(xs)`. -/
def joinWith (sep : List Char) : List (List Char) → List Char
  | [] => []
  | [x] => x
  | x :: xs => x ++ sep ++ joinWith sep xs

/-- The statement and the parameters that `select` passes to `cursor.execute`: `richard/data_source/Sqlite3DataSource.py:12-23`,
`MySqlDataSource.py:12-23`, `PsycoPg2DataSource.py:12-25`, `PsycoPg3DataSource.py`. -/
def selectSql (ph : List Char) (table : List Char) (columns : List (List Char)) (values : List Value) : List Char × List Value :=
  let wp := whereLoop ph columns values ['T', 'R', 'U', 'E'] []
  (['S', 'E', 'L', 'E', 'C', 'T', ' '] ++ joinWith [','] columns ++ [' ', 'F', 'R', 'O', 'M', ' '] ++ table
    ++ [' ', 'W', 'H', 'E', 'R', 'E', ' '] ++ wp.1, wp.2)

/-- The statement and the parameters of `insert`, `richard/data_source/Sqlite3DataSource.py:27-31`. -/
def insertSql (table : List Char) (columns : List (List Char)) (values : List Value) : List Char × List Value :=
  (['I', 'N', 'S', 'E', 'R', 'T', ' ', 'O', 'R', ' ', 'I', 'G', 'N', 'O', 'R', 'E', ' ', 'I', 'N', 'T', 'O', ' '] ++ table
    ++ [' ', '('] ++ joinWith [','] columns ++ [')', ' ', 'V', 'A', 'L', 'U', 'E', 'S', ' ', '(']
    ++ joinWith [',', ' '] (values.map fun _ => ['?']) ++ [')'], values)

/-- The statement and the parameters of `delete`, `richard/data_source/Sqlite3DataSource.py:34-37`. -/
def deleteSql (table : List Char) (columns : List (List Char)) (values : List Value) : List Char × List Value :=
  (['D', 'E', 'L', 'E', 'T', 'E', ' ', 'F', 'R', 'O', 'M', ' '] ++ table ++ [' ', 'W', 'H', 'E', 'R', 'E', ' ']
    ++ joinWith ['A', 'N', 'D', ' '] (columns.map fun c => c ++ [' ', '=', ' ', '?', ' ']), values)

/-! ## An sqlite database -/

/-- Tables of an sqlite database, one list of rows per table. Stands for the external SQLite engine: rows of a table without
constraints, in insertion order. Simplified: values are stored unchanged (no conversion to the type of the column). -/
abbrev SqlDb := Dict (List (List Value))

namespace SqlDb

/-- Effect of the `INSERT` of `richard/data_source/Sqlite3DataSource.py:27-31` for columns in the order of the table; an
unknown table is an `sqlite3.OperationalError`. -/
def insert (table : String) (values : List Value) (db : SqlDb) : Except Err SqlDb :=
  match db.get table with
  | none => .error (.exception "OperationalError")
  | some rows => .ok (db.set table (rows ++ [values]))

/-- `column = ?` for all columns: `NULL` equals nothing. -/
def sqlEq : List Value → List Value → Bool
  | v :: vs, r :: rs => (decide (v ≠ .none) && decide (v = r)) && sqlEq vs rs
  | _, _ => true

/-- Effect of the `DELETE` of `richard/data_source/Sqlite3DataSource.py:34-37`. -/
def delete (table : String) (values : List Value) (db : SqlDb) : Except Err SqlDb :=
  match db.get table with
  | none => .error (.exception "OperationalError")
  | some rows => .ok (db.set table (rows.filter fun r => !sqlEq values r))

/-- Effect of the `SELECT` of `richard/data_source/Sqlite3DataSource.py:12-24` for columns in the order of the table. -/
def select (table : String) (values : List Value) (db : SqlDb) : Except Err (List (List Value)) :=
  match db.get table with
  | none => .error (.exception "OperationalError")
  | some rows => .ok (rows.filter (rowMatches values))

end SqlDb

/-! ## Memory modules -/

section
variable {W : Type}

/-- Models `richard/module/SimpleMemoryModule.py:30-31` (`query`) on a `SimpleDataSource`. -/
def memoryQuery (l : Lens W SimpleStore) (values : List Value) (ctx : Ctx W) : M W QOut := do
  let s ← M.gets l.get
  let rows ← M.lift (s.select ctx.predicate ctx.columns values)
  pure (.rows rows)

/-- Models `richard/module/SimpleMemoryModule.py:34-35` (`write`) on a `SimpleDataSource`. -/
def memoryWrite (l : Lens W SimpleStore) (values : List Value) (ctx : Ctx W) : M W Unit :=
  M.modify fun w => l.put ((l.get w).insert ctx.predicate ctx.columns values) w

/-- A relation with the default functions of `richard/module/SimpleMemoryModule.py:22-27` (`add_relation`). `context.relation` is
always the relation itself (`richard/core/Solver.py:124,173`), which is made explicit here. -/
def memoryRelation (l : Lens W SimpleStore) (p : String) (columns : List String) : Relation W where
  predicate := p
  columns := columns
  query := fun values ctx => memoryQuery l values { ctx with predicate := p, columns := columns }
  write := some fun values ctx => memoryWrite l values { ctx with predicate := p, columns := columns }

/-- A memory module on a `SimpleDataSource` with the given relations (predicate and column names); models
`richard/module/SimpleMemoryModule.py:22-27` (`add_relation`) with `richard/module/BasicOutputBuffer.py:20-21`. -/
def memoryModule (l : Lens W SimpleStore) (rels : Dict (List String)) : Module W where
  relations := fun _ p => (rels.get p).map (memoryRelation l p)

/-- The relations of `richard/module/BasicOutputBuffer.py:11-17`. -/
def outputRelations : Dict (List String) :=
  [("output_type", ["type"]), ("output_value", ["value"]), ("output_value_with_unit", ["value", "unit"]),
   ("output_table", ["results", "units"]), ("output_list", ["elements"]), ("output_name_not_found", ["name"]),
   ("output_unknown_word", ["word"])]

/-- Models `richard/module/BasicOutputBuffer.py:6-21`. -/
def outputBuffer (l : Lens W SimpleStore) : Module W := memoryModule l outputRelations

/-! ## The dialog context -/

/-- Run an operation of the database. -/
def sqlDo (l : Lens W SqlDb) (f : SqlDb → Except Err SqlDb) : M W Unit := fun w =>
  match f (l.get w) with
  | .ok db => .ok (l.put db w) ()
  | .error e => .err w e

/-- Models `richard/module/SimpleMemoryModule.py:30-31` (`query`) on an `Sqlite3DataSource`. -/
def sqlQuery (l : Lens W SqlDb) (values : List Value) (ctx : Ctx W) : M W QOut := do
  let db ← M.gets l.get
  let rows ← M.lift (db.select ctx.predicate values)
  pure (.rows rows)

/-- Models `richard/module/SimpleMemoryModule.py:34-35` (`write`) on an `Sqlite3DataSource`. -/
def sqlWrite (l : Lens W SqlDb) (values : List Value) (ctx : Ctx W) : M W Unit := sqlDo l (SqlDb.insert ctx.predicate values)

/-- Models `richard/module/BasicDialogContext.py:21-29` (`with_context`). -/
def withContext (l : Lens W SqlDb) (values : List Value) (ctx : Ctx W) : M W QOut := do
  let name ← nth values 0
  let body ← nth values 1
  sqlDo l (SqlDb.insert "context" [name])
  let _ ← ctx.solver.solve body ctx.binding
  sqlDo l (SqlDb.delete "context" [name])
  pure (.rows [[.none, .none]])

/-- Models `richard/module/BasicDialogContext.py:31-36` (`start_context`). -/
def startContext (l : Lens W SqlDb) (values : List Value) (_ : Ctx W) : M W QOut := do
  let name ← nth values 0
  sqlDo l (SqlDb.insert "context" [name])
  pure (.rows [[.none]])

/-- Models `richard/module/BasicDialogContext.py:39-44` (`end_context`). -/
def endContext (l : Lens W SqlDb) (values : List Value) (_ : Ctx W) : M W QOut := do
  let name ← nth values 0
  sqlDo l (SqlDb.delete "context" [name])
  pure (.rows [[.none]])

/-- The relations of `richard/module/BasicDialogContext.py:13-18`. All get the default write function of
`richard/module/SimpleMemoryModule.py:26-27`. -/
def dialogTable (l : Lens W SqlDb) : Dict (List String × (List Value → Ctx W → M W QOut)) :=
  [("dialog_isa", ["entity", "type"], sqlQuery l), ("context", ["name"], sqlQuery l),
   ("with_context", ["name", "body"], withContext l), ("start_context", ["name"], startContext l),
   ("end_context", ["name"], endContext l)]

/-- Models `richard/module/BasicDialogContext.py:6-18`. -/
def dialogContext (l : Lens W SqlDb) : Module W where
  relations := fun _ p => ((dialogTable l).get p).map fun cf =>
    { predicate := p, columns := cf.1, query := cf.2, write := some (sqlWrite l) }

/-- The tables created by `richard/module/BasicDialogContext.py:47-53` (`clear`). -/
def dialogInit : SqlDb := [("dialog_isa", []), ("context", [])]

end

/-! ## CSV -/

/-- The loop of `richard/data_source/CsvImporter.py:11-30` over the rows that the `csv` reader yields; `line` and `headers` are
the local variables, `insert` the data source's insertion. Python's `csv` reader itself is not modelled. -/
def csvLoop {S : Type} (insert : List String → List String → S → S) : List (List String) → Nat → List String → S → S
  | [], _, _, s => s
  | row :: rows, line, headers, s =>
    if row.length = 0 then csvLoop insert rows line headers s
    else if line + 1 = 1 then csvLoop insert rows (line + 1) row s
    else csvLoop insert rows (line + 1) headers (insert headers ((headers.zip row).map Prod.snd) s)

/-- Models `richard/data_source/CsvImporter.py:6-30` (`import_table_from_file`). -/
def csvImport {S : Type} (insert : List String → List String → S → S) (rows : List (List String)) (s : S) : S :=
  csvLoop insert rows 0 [] s

/-! ## SPARQL -/

/-- A request: table, columns and values. -/
structure SparqlRequest where
  table : String
  columns : List String
  values : List Value
  deriving DecidableEq

/-- `table + str(columns) + str(values)`, `richard/data_source/SparqlDataSource.py:30`. -/
def cacheText (r : SparqlRequest) : List Char := r.table.toList ++ strRow (r.columns.map .str) ++ strRow r.values

/-- The state of the outside world: the files in the cache directory (by the hash in their name) and the list of requests sent to
the server so far. -/
structure SparqlWorld (K : Type) where
  files : K → Option (List (List Value))
  sent : List SparqlRequest

/-- Models `richard/data_source/SparqlDataSource.py:26-52` (`select`). `hash` stands for the hexadecimal SHA-1 digest; `path` is
whether there is a `result_cache_path`; `server` is `do_select`, which may answer differently each time (it sees the earlier
requests); `writable` is whether the file can be written (otherwise an `OSError`, ignored). A file that exists can be read. -/
def sparqlSelect {K : Type} [DecidableEq K] (hash : List Char → K) (path : Bool) (writable : K → Bool)
    (server : List SparqlRequest → SparqlRequest → Except Err (List (List Value))) (r : SparqlRequest) (w : SparqlWorld K) :
    SparqlWorld K × Except Err (List (List Value)) :=
  let key := hash (cacheText r)
  match (if path then w.files key else none) with
  | some result => (w, .ok result)
  | none =>
    let w1 : SparqlWorld K := { w with sent := w.sent ++ [r] }
    match server w.sent r with
    | .error e => (w1, .error e)
    | .ok result =>
      if path && writable key then ({ w1 with files := fun k => if k = key then some result else w1.files k }, .ok result)
      else (w1, .ok result)

/-- `values[i]`, `columns[i]`, `terms[i]`. -/
def idx {α : Type} (xs : List α) (i : Nat) : Except Err α :=
  match xs[i]? with
  | some x => .ok x
  | none => .error .indexError

/-- The text `?term`. -/
def termPrefix : List Char := ['?', 't', 'e', 'r', 'm']

/-- Models `richard/data_source/SparqlDataSource.py:114-127` (`prepare_term`). `str` of a value that is no string is modelled by
its `repr`, which is the same for numbers, lists and tuples. -/
def prepareTerm (lang : List Char) (term : Value) (index : Nat) (columns : List String) : Except Err (List Char) :=
  match term with
  | .none => .ok (termPrefix ++ showNat index)
  | .str s => do
    let c ← idx columns index
    if c = "id" then .ok (['<'] ++ s.toList ++ ['>'])
    else if c = "constant" then .ok s.toList
    else .ok (['\''] ++ s.toList ++ ['\'', '@'] ++ lang)
  | v => .ok (reprV v)

/-- Models `richard/data_source/SparqlDataSource.py:130-137` (`prepare_variables`) for two values and two terms. -/
def prepareVariables (v0 v1 : Value) (t0 t1 : List Char) : List (List Char) :=
  let variables := (if v0 = .none then [t0] else []) ++ (if v1 = .none then [t1] else [])
  if variables.length = 0 then [['*']] else variables

/-- One step of `richard/data_source/SparqlDataSource.py:142-144`. -/
def textVariable (v : Value) (t : List Char) (columns : List String) (i : Nat) : Except Err (List (List Char)) :=
  if v = .none then do
    let c ← idx columns i
    .ok (if c = "text" then [t] else [])
  else .ok []

/-- Models `richard/data_source/SparqlDataSource.py:140-145` (`prepare_text_variables`). -/
def prepareTextVariables (v0 v1 : Value) (t0 t1 : List Char) (columns : List String) : Except Err (List (List Char)) := do
  let a ← textVariable v0 t0 columns 0
  let b ← textVariable v1 t1 columns 1
  .ok (a ++ b)

/-- Models `richard/data_source/SparqlDataSource.py:95-111` (`create_query`). Simplified: each run of line breaks and
indentation is one space. -/
def createQuery (lang : List Char) (variables textVariables : List (List Char)) (t0 t1 table : List Char) : List Char :=
  let filter := (textVariables.map fun v => " FILTER(LANG(".toList ++ v ++ ") = \"".toList ++ lang ++ "\") . ".toList).flatten
  " SELECT ".toList ++ joinWith [' '] variables ++ " WHERE { ".toList ++ t0 ++ [' '] ++ table ++ [' '] ++ t1 ++ " . ".toList
    ++ filter ++ " } ".toList

/-- The value of a variable in one item of the response: `item[var]['value']`, `richard/data_source/SparqlDataSource.py:157`. -/
def itemValue (item : Dict (Dict String)) (var : List Char) : Except Err Value :=
  match item.get (String.ofList var) with
  | none => .error .keyError
  | some d => match d.get "value" with
    | none => .error .keyError
    | some s => .ok (.str s)

/-- One step of the inner loop of `richard/data_source/SparqlDataSource.py:153-160`. -/
def resultCell (item : Dict (Dict String)) (v : Value) (term : List Char) : Except Err Value :=
  if v = .none then itemValue item term.tail else .ok v

/-- Models `richard/data_source/SparqlDataSource.py:148-163` (`prepare_results`) on the list `data['results']['bindings']`. -/
def prepareResults (v0 v1 : Value) (t0 t1 : List Char) : List (Dict (Dict String)) → Except Err (List (List Value))
  | [] => .ok []
  | item :: items => do
    let a ← resultCell item v0 t0
    let b ← resultCell item v1 t1
    let rest ← prepareResults v0 v1 t0 t1 items
    .ok ([a, b] :: rest)

/-- The response of the server: a status and, if it is JSON of the expected shape, the list of items. -/
structure HttpResponse where
  status : Nat
  bindings : Option (List (Dict (Dict String)))

/-- Models `richard/data_source/SparqlDataSource.py:55-92` (`do_select`); `http` is the server. -/
def doSelect (lang : List Char) (http : List Char → HttpResponse) (r : SparqlRequest) : Except Err (List (List Value)) := do
  let v0 ← idx r.values 0
  let t0 ← prepareTerm lang v0 0 r.columns
  let v1 ← idx r.values 1
  let t1 ← prepareTerm lang v1 1 r.columns
  let variables := prepareVariables v0 v1 t0 t1
  let textVariables ← prepareTextVariables v0 v1 t0 t1 r.columns
  let response := http (createQuery lang variables textVariables t0 t1 r.table.toList)
  if response.status = 403 then .error (.exception "Not allowed")
  else if response.status = 429 then .error (.exception "Too many requests")
  else if response.status = 400 then .error (.exception "Bad request")
  else match response.bindings with
    | none => .error .valueError
    | some items => prepareResults v0 v1 t0 t1 items

end Verif

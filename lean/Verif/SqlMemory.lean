import Verif.SqlSources
import Verif.Solver

/-!
# Modules that keep their facts in a database
-/

namespace Verif.Sql

variable {W : Type}

/-- Models `richard/module/SimpleMemoryModule.py:30-31` (`query`): the statement that `Sqlite3DataSource` sends for `select` is run on the database. -/
def dbQuery (d : Dialect) (l : Lens W Db) (p : String) (columns : List String) (values : List Value) : M W QOut := do
  let db ← M.gets l.get
  let rows ← M.lift (select d .qmark p.toList (columns.map String.toList) values db)
  pure (.rows rows)

/-- Models `richard/module/SimpleMemoryModule.py:34-35` (`write`): the statement for `insert` is run on the database. -/
def dbWrite (d : Dialect) (l : Lens W Db) (p : String) (columns : List String) (values : List Value) : M W Unit := fun w =>
  match insert d p.toList (columns.map String.toList) values (l.get w) with
  | .ok db => .ok (l.put db w) ()
  | .error e => .err w e

/-- A relation with the default functions of `richard/module/SimpleMemoryModule.py:22-27` (`add_relation`); `context.relation` is always the
relation itself (`richard/core/Solver.py:124,173`). -/
def dbRelation (d : Dialect) (l : Lens W Db) (p : String) (columns : List String) : Relation W where
  predicate := p
  columns := columns
  query := fun values _ => dbQuery d l p columns values
  write := some fun values _ => dbWrite d l p columns values

/-- A module with such relations, `richard/module/SimpleMemoryModule.py:8-35`. -/
def dbModule (d : Dialect) (l : Lens W Db) (rels : Dict (List String)) : Module W where
  relations := fun _ p => (rels.get p).map (dbRelation d l p)

/-- A relation of which the query function is `return self.ds.select(table, columns, values)`, as in `tests/integration/hello_world/HelloWorldModule.py:18-19` and
`tests/integration/chat80/Chat80Module.py:40-63`, on any of the SQL data sources. -/
def selectRelation (d : Dialect) (st : Style) (l : Lens W Db) (p table : String) (columns : List String) : Relation W where
  predicate := p
  query := fun values _ => do
    let db ← M.gets l.get
    let rows ← M.lift (select d st table.toList (columns.map String.toList) values db)
    pure (.rows rows)

/-- A module with such relations, as `tests/integration/hello_world/HelloWorldModule.py:7-19`. For each predicate: the table and the columns. -/
def selectModule (d : Dialect) (st : Style) (l : Lens W Db) (rels : Dict (String × List String)) : Module W where
  relations := fun _ p => (rels.get p).map fun tc => selectRelation d st l p tc.1 tc.2

end Verif.Sql

import Verif.Sql

/-!
# The data sources that send SQL statements, on a database
-/

namespace Verif.Sql

/-- Models `select` of `richard/data_source/Sqlite3DataSource.py:12-24` (`?`), `MySqlDataSource.py:12-24`, `PsycoPg2DataSource.py:12-26` and
`PsycoPg3DataSource.py:12-26` (`%s`), on a database. The cursors differ in how they are made; all of them yield tuples. -/
def select (d : Dialect) (st : Style) (table : Name) (columns : List Name) (values : List Value) (db : Db) : Except Err (List (List Value)) :=
  let s := selectSql st.placeholder table columns values
  (d.execute st s.1 s.2 db).map Prod.fst

/-- Models `insert` of `richard/data_source/Sqlite3DataSource.py:27-31`, on a database. -/
def insert (d : Dialect) (table : Name) (columns : List Name) (values : List Value) (db : Db) : Except Err Db :=
  let s := insertSql table columns values
  (d.execute .qmark s.1 s.2 db).map Prod.snd

/-- Models `delete` of `richard/data_source/Sqlite3DataSource.py:34-37`, on a database. -/
def delete (d : Dialect) (table : Name) (columns : List Name) (values : List Value) (db : Db) : Except Err Db :=
  let s := deleteSql table columns values
  (d.execute .qmark s.1 s.2 db).map Prod.snd

/-- Models `clear` of `richard/data_source/Sqlite3DataSource.py:40-41`. -/
def clear : Except Err Db := .error (.exception "clear not implemented")

end Verif.Sql

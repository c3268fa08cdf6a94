import Verif.DataSource

/-!
# Specification: what SQL statements do

A small database engine, written down from the definition of SQL: how a statement is cut into tokens, what its grammar is, and what it does to
tables. It stands for the external engines (`sqlite3`, MySQL, PostgreSQL) that `richard/data_source` talks to, and covers those statements
that it sends. Nothing here depends on how the data sources put their statements together.
-/

namespace Verif.Sql

/-- The names of tables and columns. -/
abbrev Name := List Char

/-- How a placeholder is written: `?` (`sqlite3`), or `%s` (`mysql.connector`, `psycopg2`, `psycopg`). -/
inductive Style where
  | qmark
  | percent
deriving DecidableEq

/-- The text of a placeholder. -/
def Style.placeholder : Style → List Char
  | .qmark => ['?']
  | .percent => ['%', 's']

/-! ## Tokens -/

/-- The tokens of the statements. -/
inductive Token where
  | word (w : Name)
  | placeholder
  | comma
  | opening
  | closing
  | equals
deriving DecidableEq

/-- A letter or an underscore: how a word begins. -/
def isStart (c : Char) : Bool := c.isAlpha || c == '_'

/-- A letter, a digit or an underscore: how a word goes on. -/
def isInner (c : Char) : Bool := c.isAlphanum || c == '_'

/-- What has been read of a token. -/
inductive Reading where
  | gap
  | word (w : Name)
  | percent

/-- Cut a text into tokens; `none` if it has something else. -/
def tokens (st : Style) : Reading → List Char → Option (List Token)
  | .gap, [] => some []
  | .word w, [] => some [.word w]
  | .percent, [] => none
  | .percent, c :: cs => if c = 's' then (tokens st .gap cs).map (.placeholder :: ·) else none
  | .word w, c :: cs => if isInner c then tokens st (.word (w ++ [c])) cs else
      (if c = ' ' then tokens st .gap cs
        else if c = ',' then (tokens st .gap cs).map (.comma :: ·)
        else if c = '(' then (tokens st .gap cs).map (.opening :: ·)
        else if c = ')' then (tokens st .gap cs).map (.closing :: ·)
        else if c = '=' then (tokens st .gap cs).map (.equals :: ·)
        else if c = '?' ∧ st = .qmark then (tokens st .gap cs).map (.placeholder :: ·)
        else if c = '%' ∧ st = .percent then tokens st .percent cs
        else none).map (.word w :: ·)
  | .gap, c :: cs => if isStart c then tokens st (.word [c]) cs
      else if c = ' ' then tokens st .gap cs
      else if c = ',' then (tokens st .gap cs).map (.comma :: ·)
      else if c = '(' then (tokens st .gap cs).map (.opening :: ·)
      else if c = ')' then (tokens st .gap cs).map (.closing :: ·)
      else if c = '=' then (tokens st .gap cs).map (.equals :: ·)
      else if c = '?' ∧ st = .qmark then (tokens st .gap cs).map (.placeholder :: ·)
      else if c = '%' ∧ st = .percent then tokens st .percent cs
      else none

/-! ## Grammar -/

/-- Names and keywords can be written in capitals and small letters. -/
def fold (w : Name) : Name := w.map Char.toLower

/-- In what engines differ: the words that can not be names (in small letters), and which values are equal (not `NULL`, which equals nothing). -/
structure Dialect where
  reserved : Name → Bool
  same : Value → Value → Bool

/-- The keywords of the statements. -/
def keywords : List Name :=
  [['s', 'e', 'l', 'e', 'c', 't'], ['f', 'r', 'o', 'm'], ['w', 'h', 'e', 'r', 'e'], ['t', 'r', 'u', 'e'], ['a', 'n', 'd'],
   ['i', 'n', 's', 'e', 'r', 't'], ['o', 'r'], ['i', 'n', 't', 'o'], ['v', 'a', 'l', 'u', 'e', 's'], ['d', 'e', 'l', 'e', 't', 'e']]

/-- The word can not be a name. -/
def Dialect.taken (d : Dialect) (w : Name) : Bool := keywords.contains (fold w) || d.reserved (fold w)

/-- What can be asked of a row. -/
inductive Test where
  | yes
  | equals (c : Name)
deriving DecidableEq

/-- The statements. -/
inductive Statement where
  | select (columns : List Name) (table : Name) (tests : List Test)
  | insert (table : Name) (columns : List Name) (n : Nat)
  | delete (table : Name) (tests : List Test)
deriving DecidableEq

/-- A keyword. -/
def keyword (k : Name) : List Token → Option (List Token)
  | .word w :: ts => if fold w = k then some ts else none
  | _ => none

/-- A token. -/
def token (t : Token) : List Token → Option (List Token)
  | u :: ts => if u = t then some ts else none
  | _ => none

/-- A name. -/
def name (d : Dialect) : List Token → Option (Name × List Token)
  | .word w :: ts => if d.taken w then none else some (w, ts)
  | _ => none

/-- Names, with commas between them. -/
def names (d : Dialect) : List Token → Option (List Name × List Token)
  | .word w :: .comma :: ts => if d.taken w then none else (names d ts).map fun p => (w :: p.1, p.2)
  | .word w :: ts => if d.taken w then none else some ([w], ts)
  | _ => none

/-- Placeholders, with commas between them: how many. -/
def places : List Token → Option (Nat × List Token)
  | .placeholder :: .comma :: ts => (places ts).map fun p => (p.1 + 1, p.2)
  | .placeholder :: ts => some (1, ts)
  | _ => none

/-- Tests, with `AND` between them, up to the end. -/
def tests (d : Dialect) : List Token → Option (List Test)
  | [.word c, .equals, .placeholder] => if d.taken c then none else some [.equals c]
  | .word c :: .equals :: .placeholder :: .word a :: ts =>
    if d.taken c || decide (fold a ≠ ['a', 'n', 'd']) then none else (tests d ts).map (.equals c :: ·)
  | [.word t] => if fold t = ['t', 'r', 'u', 'e'] then some [.yes] else none
  | .word t :: .word a :: ts =>
    if fold t = ['t', 'r', 'u', 'e'] ∧ fold a = ['a', 'n', 'd'] then (tests d ts).map (.yes :: ·) else none
  | _ => none

/-- `SELECT names FROM name WHERE tests`, after the first word. -/
def selectOf (d : Dialect) (ts : List Token) : Option Statement := do
  let (cs, ts) ← names d ts
  let ts ← keyword ['f', 'r', 'o', 'm'] ts
  let (t, ts) ← name d ts
  let ts ← keyword ['w', 'h', 'e', 'r', 'e'] ts
  let q ← tests d ts
  some (.select cs t q)

/-- `INSERT OR IGNORE INTO name (names) VALUES (placeholders)`, after the first word. -/
def insertOf (d : Dialect) (ts : List Token) : Option Statement := do
  let ts ← keyword ['o', 'r'] ts
  let ts ← keyword ['i', 'g', 'n', 'o', 'r', 'e'] ts
  let ts ← keyword ['i', 'n', 't', 'o'] ts
  let (t, ts) ← name d ts
  let ts ← token .opening ts
  let (cs, ts) ← names d ts
  let ts ← token .closing ts
  let ts ← keyword ['v', 'a', 'l', 'u', 'e', 's'] ts
  let ts ← token .opening ts
  let (n, ts) ← places ts
  let ts ← token .closing ts
  if ts = [] then some (.insert t cs n) else none

/-- `DELETE FROM name WHERE tests`, after the first word. -/
def deleteOf (d : Dialect) (ts : List Token) : Option Statement := do
  let ts ← keyword ['f', 'r', 'o', 'm'] ts
  let (t, ts) ← name d ts
  let ts ← keyword ['w', 'h', 'e', 'r', 'e'] ts
  let q ← tests d ts
  some (.delete t q)

/-- A statement. -/
def statement (d : Dialect) : List Token → Option Statement
  | .word w :: ts =>
    if fold w = ['s', 'e', 'l', 'e', 'c', 't'] then selectOf d ts
    else if fold w = ['i', 'n', 's', 'e', 'r', 't'] then insertOf d ts
    else if fold w = ['d', 'e', 'l', 'e', 't', 'e'] then deleteOf d ts
    else none
  | _ => none

/-! ## Tables -/

/-- A table: its columns, its rows, and its constraints: whether a new row is refused, given the rows that there are. -/
structure Table where
  columns : List Name
  rows : List (List Value)
  refuses : List (List Value) → List Value → Bool

/-- A database: the tables by their names, in small letters. -/
abbrev Db := Name → Option Table

/-- Change a table. -/
def Db.put (db : Db) (t : Name) (tab : Table) : Db := fun u => if u = fold t then some tab else db u

/-- Which column it is. -/
def Table.position (t : Table) (c : Name) : Option Nat := (t.columns.map fold).idxOf? (fold c)

/-- What a row has there. -/
def at' (row : List Value) (i : Nat) : Value := row.getD i .none

/-- `NULL` equals nothing. -/
def Dialect.equal (d : Dialect) (v u : Value) : Bool := decide (v ≠ .none) && decide (u ≠ .none) && d.same v u

/-- The tests with the values that they compare to. -/
def withValues (t : Table) : List Test → List Value → Option (List (Nat × Value))
  | [], [] => some []
  | .yes :: qs, ps => withValues t qs ps
  | .equals c :: qs, p :: ps => do
    let i ← t.position c
    let rest ← withValues t qs ps
    some ((i, p) :: rest)
  | _, _ => none

/-- The row passes all tests. -/
def Dialect.passes (d : Dialect) (qs : List (Nat × Value)) (row : List Value) : Bool := qs.all fun q => d.equal (at' row q.1) q.2

/-- The values that a driver accepts: `None`, numbers and texts. -/
def bindable : Value → Bool
  | .none => true
  | .num _ => true
  | .str _ => true
  | _ => false

/-- What the statement does with the values for its placeholders: the rows that it finds, and the database afterwards. `none` if it can not be
done: an unknown table or column, a column that is given twice, or another number of values. -/
def Dialect.perform (d : Dialect) (db : Db) (ps : List Value) : Statement → Option (List (List Value) × Db)
  | .select cs t qs => do
    let tab ← db (fold t)
    let is ← cs.mapM tab.position
    let qs ← withValues tab qs ps
    some ((tab.rows.filter (d.passes qs)).map fun row => is.map (at' row), db)
  | .insert t cs n => do
    let tab ← db (fold t)
    let is ← cs.mapM tab.position
    if n = ps.length ∧ n = cs.length ∧ is.Nodup then
      let row := (List.range tab.columns.length).map fun i => ((is.zip ps).find? fun p => p.1 == i).elim .none Prod.snd
      some ([], if tab.refuses tab.rows row then db else db.put t { tab with rows := tab.rows ++ [row] })
    else none
  | .delete t qs => do
    let tab ← db (fold t)
    let qs ← withValues tab qs ps
    some ([], db.put t { tab with rows := tab.rows.filter fun row => !d.passes qs row })

/-- `cursor.execute(text, values)` and `cursor.fetchall()`: the driver and the engine. -/
def Dialect.execute (d : Dialect) (st : Style) (text : List Char) (ps : List Value) (db : Db) : Except Err (List (List Value) × Db) :=
  match (tokens st .gap text).bind (statement d) with
  | none => .error (.exception "OperationalError")
  | some s =>
    if ps.all bindable then
      match d.perform db ps s with
      | none => .error (.exception "OperationalError")
      | some r => .ok r
    else .error (.exception "InterfaceError")

end Verif.Sql

import Verif.SqlLemmas
import Verif.Props.DataSource

/-!
# C85: what the SQL statements of the data sources do
-/

namespace Verif.Sql

/-! ## Specification -/

/-- The value of a row in a column. -/
def Table.cell (t : Table) (row : List Value) (c : Name) : Value := (t.position c).elim .none (at' row)

/-- The table has the column. -/
def Table.Has (t : Table) (c : Name) : Prop := fold c ∈ t.columns.map fold

/-- The row has the values that are asked for: where a value is given, the row has an equal one. -/
def Dialect.wanted (d : Dialect) (t : Table) (cs : List Name) (vs : List Value) (row : List Value) : Bool :=
  (cs.zip vs).all fun p => decide (p.2 = .none) || d.equal (t.cell row p.1) p.2

/-- The row has all of the values. -/
def Dialect.matching (d : Dialect) (t : Table) (cs : List Name) (vs : List Value) (row : List Value) : Bool :=
  (cs.zip vs).all fun p => d.equal (t.cell row p.1) p.2

/-! ## Proofs -/

theorem Table.position_of {t : Table} {c : Name} (h : t.Has c) : ∃ i, t.position c = some i := by
  cases hp : t.position c with
  | none =>
    rw [Table.position, List.idxOf?_eq_none_iff] at hp
    exact absurd h hp
  | some i => exact ⟨i, rfl⟩

theorem Table.position_spec {t : Table} {c : Name} {i : Nat} (h : t.position c = some i) : (t.columns.map fold)[i]? = some (fold c) := by
  rw [Table.position, List.idxOf?_eq_some_iff] at h
  obtain ⟨h1, h2, _⟩ := h
  rw [List.getElem?_eq_getElem h1, h2]

/-- Where a column is. -/
def Table.pos (t : Table) (c : Name) : Nat := (t.position c).getD 0

theorem Table.position_pos {t : Table} {c : Name} (h : t.Has c) : t.position c = some (t.pos c) := by
  obtain ⟨i, hi⟩ := Table.position_of h
  rw [Table.pos, hi]
  rfl

theorem Table.cell_pos {t : Table} {c : Name} (h : t.Has c) (row : List Value) : t.cell row c = at' row (t.pos c) := by
  rw [Table.cell, Table.position_pos h]
  rfl

theorem positions_of {t : Table} : ∀ {cs : List Name}, (∀ c ∈ cs, t.Has c) → cs.mapM t.position = some (cs.map t.pos)
  | [], _ => rfl
  | c :: cs, h => by
    rw [List.mapM_cons, Table.position_pos (h c (by simp)), positions_of fun x hx => h x (List.mem_cons_of_mem _ hx)]
    rfl

theorem withValues_of {t : Table} : ∀ {gs : List (Name × Value)}, (∀ g ∈ gs, t.Has g.1) →
    withValues t (gs.map fun g => .equals g.1) (gs.map Prod.snd) = some (gs.map fun g => (t.pos g.1, g.2))
  | [], _ => rfl
  | g :: gs, h => by
    simp only [List.map_cons, withValues]
    rw [Table.position_pos (h g (by simp)), withValues_of fun x hx => h x (List.mem_cons_of_mem _ hx)]
    rfl

theorem passes_given {d : Dialect} {t : Table} {gs : List (Name × Value)} (h : ∀ g ∈ gs, t.Has g.1) (row : List Value) :
    d.passes (gs.map fun g => (t.pos g.1, g.2)) row = gs.all fun g => d.equal (t.cell row g.1) g.2 := by
  induction gs with
  | nil => rfl
  | cons g gs ih =>
    simp only [Dialect.passes] at ih
    simp only [Dialect.passes, List.map_cons, List.all_cons]
    rw [ih fun x hx => h x (List.mem_cons_of_mem _ hx), Table.cell_pos (h g (by simp))]

theorem all_given {d : Dialect} {t : Table} (cs : List Name) (vs : List Value) (row : List Value) :
    ((given cs vs).all fun g => d.equal (t.cell row g.1) g.2) = d.wanted t cs vs row := by
  simp only [given, Dialect.wanted]
  induction cs.zip vs with
  | nil => rfl
  | cons p ps ih =>
    simp only [List.filter_cons, List.all_cons, ← ih]
    by_cases hp : p.2 = .none
    · simp [hp]
    · simp [hp]

section
variable {d : Dialect} {table : Name} {columns : List Name} {t : Table} {db : Db}

/-- **C85** A `select` on a database returns exactly those rows of the table that have the values asked for, in the order of the table, each with
the values of the columns asked for, in the order asked for. This holds for both ways to write placeholders, whatever words the
engine reserves, and whichever values it takes to be equal; `None` asks for nothing, and an empty cell (`NULL`) is equal to nothing. -/
theorem C85_select (st : Style) (htable : d.Named table) (hcolumns : ∀ c ∈ columns, d.Named c) (hne : columns ≠ [])
    (ht : db (fold table) = some t) (hc : ∀ c ∈ columns, t.Has c) {values : List Value} (hv : ∀ v ∈ values, bindable v = true) :
    select d st table columns values db = .ok ((t.rows.filter (d.wanted t columns values)).map fun row => columns.map (t.cell row)) := by
  have hg : ∀ g ∈ given columns values, t.Has g.1 := fun g hg => hc _ (given_mem hg).1
  have hb : (selectSql st.placeholder table columns values).2 = (given columns values).map Prod.snd := by simp [selectSql, whereLoop_given]
  have hall : ((given columns values).map Prod.snd).all bindable = true := by
    rw [List.all_eq_true]
    intro v h
    obtain ⟨g, h1, rfl⟩ := List.mem_map.1 h
    exact hv _ (given_mem h1).2.1
  rw [select, Dialect.execute, read_select values htable hcolumns hne, hb]
  simp only [hall, if_true, Dialect.perform, ht, Option.bind_eq_bind, Option.bind_some, positions_of hc, withValues, withValues_of hg, Except.map]
  congr 1
  rw [List.filter_congr fun row _ => show d.passes _ row = d.wanted t columns values row by rw [passes_given hg, all_given]]
  apply List.map_congr_left
  intro row _
  rw [List.map_map]
  apply List.map_congr_left
  intro c h
  exact (Table.cell_pos (hc c h) row).symm

theorem zip_map_snd_of_length {α β : Type} : ∀ {xs : List α} {ys : List β}, ys.length = xs.length → (xs.zip ys).map Prod.snd = ys
  | [], [], _ => rfl
  | [], _ :: _, h => by simp at h
  | _ :: _, [], h => by simp at h
  | x :: xs, y :: ys, h => by
    simp only [List.length_cons, Nat.add_right_cancel_iff] at h
    simp [zip_map_snd_of_length h]

theorem zip_map_fst_of_length {α β : Type} : ∀ {xs : List α} {ys : List β}, ys.length = xs.length → (xs.zip ys).map Prod.fst = xs
  | [], [], _ => rfl
  | [], _ :: _, h => by simp at h
  | _ :: _, [], h => by simp at h
  | x :: xs, y :: ys, h => by
    simp only [List.length_cons, Nat.add_right_cancel_iff] at h
    simp [zip_map_fst_of_length h]

/-- **C85** A `delete` removes exactly those rows that have all the values, and changes nothing else. With a value `None` it removes nothing. -/
theorem C85_delete (htable : d.Named table) (hcolumns : ∀ c ∈ columns, d.Named c) (hne : columns ≠ [])
    (ht : db (fold table) = some t) (hc : ∀ c ∈ columns, t.Has c) {values : List Value} (hv : ∀ v ∈ values, bindable v = true)
    (hlen : values.length = columns.length) :
    delete d table columns values db = .ok (db.put table { t with rows := t.rows.filter fun row => !d.matching t columns values row }) := by
  have hg : ∀ g ∈ columns.zip values, t.Has g.1 := fun g hg => hc _ (List.of_mem_zip hg).1
  have e1 := zip_map_fst_of_length hlen
  have e2 := zip_map_snd_of_length hlen
  have hw : withValues t (columns.map .equals) values = some ((columns.zip values).map fun g => (t.pos g.1, g.2)) := by
    have := withValues_of hg
    rw [e2] at this
    rw [← this]
    conv => lhs; rw [← e1, List.map_map]
    rfl
  rw [delete, Dialect.execute, read_delete values htable hcolumns hne]
  have hb : (deleteSql table columns values).2 = values := rfl
  simp only [hb, List.all_eq_true.2 hv, if_true, Dialect.perform, ht, Option.bind_eq_bind, Option.bind_some, hw, Except.map]
  congr 3
  apply List.filter_congr
  intro row _
  rw [passes_given hg]
  rfl

theorem delete_none {values : List Value} (hn : .none ∈ values) (hlen : values.length = columns.length) (row : List Value) :
    d.matching t columns values row = false := by
  rw [← zip_map_snd_of_length hlen] at hn
  obtain ⟨p, hp, e⟩ := List.mem_map.1 hn
  rw [Dialect.matching, List.all_eq_false]
  refine ⟨p, hp, ?_⟩
  rw [e]
  simp [Dialect.equal]

/-- **C85** (delete, limit) A value `None` makes a `delete` remove nothing, also where the cell is empty. -/
theorem C85_delete_none (htable : d.Named table) (hcolumns : ∀ c ∈ columns, d.Named c) (hne : columns ≠ [])
    (ht : db (fold table) = some t) (hc : ∀ c ∈ columns, t.Has c) {values : List Value} (hv : ∀ v ∈ values, bindable v = true)
    (hlen : values.length = columns.length) (hn : .none ∈ values) : delete d table columns values db = .ok db := by
  rw [C85_delete htable hcolumns hne ht hc hv hlen]
  simp only [delete_none hn hlen]
  congr 1
  funext u
  simp only [Db.put]
  split
  · rename_i h
    rw [h, ht]
    cases t
    simp
  · rfl

theorem pos_inj {c c' : Name} (h : t.Has c) (h' : t.Has c') (e : t.pos c = t.pos c') : fold c = fold c' := by
  have p := Table.position_spec (Table.position_pos h)
  have p' := Table.position_spec (Table.position_pos h')
  rw [e, p'] at p
  exact (Option.some.inj p).symm

theorem pos_lt {c : Name} (h : t.Has c) : t.pos c < t.columns.length := by
  have := (List.getElem?_eq_some_iff.1 (Table.position_spec (Table.position_pos h))).1
  simpa using this

theorem find_zip {is : List Nat} {ps : List Value} (hn : is.Nodup) (hl : ps.length = is.length) {j i : Nat} (hj : is[j]? = some i) :
    ((is.zip ps).find? fun p => p.1 == i).elim .none Prod.snd = at' ps j := by
  induction is generalizing ps j with
  | nil => simp at hj
  | cons a is ih =>
    cases ps with
    | nil => simp at hl
    | cons p ps =>
      rw [List.nodup_cons] at hn
      simp only [List.zip_cons_cons, List.find?_cons]
      cases j with
      | zero =>
        simp only [List.getElem?_cons_zero, Option.some.injEq] at hj
        subst hj
        simp [at']
      | succ j =>
        simp only [List.getElem?_cons_succ] at hj
        have : (a == i) = false := by
          rw [beq_eq_false_iff_ne]
          rintro rfl
          exact hn.1 (List.mem_of_getElem? hj)
        simp only [this]
        rw [ih hn.2 (by simpa using hl) hj]
        simp [at']

theorem find_zip_none {is : List Nat} {ps : List Value} {i : Nat} (h : i ∉ is) : ((is.zip ps).find? fun p => p.1 == i).elim Value.none Prod.snd = .none := by
  have : ((is.zip ps).find? fun p => p.1 == i) = none := by
    rw [List.find?_eq_none]
    intro p hp e
    rw [beq_iff_eq] at e
    exact h (e ▸ (List.of_mem_zip hp).1)
  rw [this]
  rfl

/-- **C85** An `insert` adds one row at the end of the table, which has the values given in the columns given and is empty in the others; the
rest of the database stays the same. If a constraint of the table refuses the row, nothing changes, and nothing is raised. -/
theorem C85_insert (htable : d.Named table) (hcolumns : ∀ c ∈ columns, d.Named c) (hne : columns ≠ [])
    (ht : db (fold table) = some t) (hc : ∀ c ∈ columns, t.Has c) (hn : (columns.map fold).Nodup)
    {values : List Value} (hv : ∀ v ∈ values, bindable v = true) (hlen : values.length = columns.length) :
    ∃ row : List Value, row.length = t.columns.length ∧ (∀ (j : Nat) c v, columns[j]? = some c → values[j]? = some v → t.cell row c = v) ∧
      (∀ c, fold c ∉ columns.map fold → t.cell row c = .none) ∧
      insert d table columns values db = .ok (if t.refuses t.rows row then db else db.put table { t with rows := t.rows ++ [row] }) := by
  have hvne : values ≠ [] := by
    rintro rfl
    exact hne (List.length_eq_zero_iff.1 hlen.symm)
  have hnd : (columns.map t.pos).Nodup := by
    rw [List.Nodup, List.pairwise_map] at hn ⊢
    exact List.Pairwise.imp_of_mem (fun {a b} ha hb hab e => hab (pos_inj (hc a ha) (hc b hb) e)) hn
  have hl : values.length = (columns.map t.pos).length := by simpa using hlen
  refine ⟨(List.range t.columns.length).map fun i => (((columns.map t.pos).zip values).find? fun p => p.1 == i).elim .none Prod.snd, by simp, ?_, ?_, ?_⟩
  · intro j c v hj hjv
    have hcm := List.mem_of_getElem? hj
    rw [Table.cell_pos (hc c hcm), at', List.getD_eq_getElem?_getD, List.getElem?_map, List.getElem?_range (pos_lt (hc c hcm))]
    simp only [Option.map_some, Option.getD_some]
    rw [find_zip hnd hl (j := j) (by rw [List.getElem?_map, hj]; rfl), at', List.getD_eq_getElem?_getD, hjv]
    rfl
  · intro c hcn
    rw [Table.cell]
    cases hp : t.position c with
    | none => rfl
    | some i =>
      have hs := Table.position_spec hp
      have hi : i < t.columns.length := by simpa using (List.getElem?_eq_some_iff.1 hs).1
      simp only [Option.elim, at', List.getD_eq_getElem?_getD, List.getElem?_map, List.getElem?_range hi, Option.map_some, Option.getD_some]
      apply find_zip_none
      intro hm
      obtain ⟨c', hc', rfl⟩ := List.mem_map.1 hm
      have := Table.position_spec (Table.position_pos (hc c' hc'))
      rw [hs] at this
      exact hcn (List.mem_map.2 ⟨c', hc', (Option.some.inj this).symm⟩)
  · rw [insert, Dialect.execute, read_insert values htable hcolumns hne hvne]
    have hb : (insertSql table columns values).2 = values := rfl
    simp only [hb, List.all_eq_true.2 hv, if_true, Dialect.perform, ht, Option.bind_eq_bind, Option.bind_some, positions_of hc, hlen, hnd, true_and,
      Except.map]

/-! ### Where the statements fail -/

/-- **C85** (limit) Without columns there is no statement: `select` and `delete` raise, whatever the table has. -/
theorem C85_no_columns (st : Style) (htable : d.Named table) (values : List Value) :
    select d st table [] values db = .error (.exception "OperationalError") ∧
    delete d table [] values db = .error (.exception "OperationalError") := by
  have hf : d.taken ['F', 'R', 'O', 'M'] = true := by
    rw [Dialect.taken, show keywords.contains (fold ['F', 'R', 'O', 'M']) = true by decide]
    rfl
  constructor
  · have e : (selectSql st.placeholder table [] values).1 = ['S', 'E', 'L', 'E', 'C', 'T'] ++ (' ' :: ' ' :: (['F', 'R', 'O', 'M'] ++ (' ' :: (table ++
        (' ' :: (['W', 'H', 'E', 'R', 'E'] ++ (' ' :: (['T', 'R', 'U', 'E'] ++ [])))))))) := by simp [selectSql, whereLoop, joinWith]
    rw [select, Dialect.execute, e, tokens_word _ (by decide), tokens_space, tokens_gap_space, tokens_word _ (by decide), tokens_space,
      tokens_word _ htable.word, tokens_space, tokens_word _ (by decide), tokens_space, tokens_word _ (by decide), tokens_end]
    simp only [Option.map_some, Option.bind_some]
    rw [statement, if_pos (by decide), selectOf, names]
    · simp [hf, Except.map]
    · simp
  · have e : (deleteSql table [] values).1 = ['D', 'E', 'L', 'E', 'T', 'E'] ++ (' ' :: (['F', 'R', 'O', 'M'] ++ (' ' :: (table ++
        (' ' :: (['W', 'H', 'E', 'R', 'E'] ++ (' ' :: []))))))) := by simp [deleteSql, joinWith]
    rw [delete, Dialect.execute, e, tokens_word _ (by decide), tokens_space, tokens_word _ (by decide), tokens_space,
      tokens_word _ htable.word, tokens_space, tokens_word _ (by decide), tokens_space]
    simp only [tokens, Option.map_some, Option.bind_some]
    rw [statement, if_neg (by decide), if_neg (by decide), if_pos (by decide), deleteOf]
    simp [keyword, name, htable.free, tests, fold, Except.map]

/-- **C85** (limit) An unknown table raises. -/
theorem C85_unknown_table (st : Style) (htable : d.Named table) (hcolumns : ∀ c ∈ columns, d.Named c) (hne : columns ≠ [])
    (ht : db (fold table) = none) {values : List Value} (hv : ∀ v ∈ values, bindable v = true) :
    select d st table columns values db = .error (.exception "OperationalError") ∧
    delete d table columns values db = .error (.exception "OperationalError") ∧
    (values ≠ [] → insert d table columns values db = .error (.exception "OperationalError")) := by
  have hb : ((given columns values).map Prod.snd).all bindable = true := by
    rw [List.all_eq_true]
    intro v h
    obtain ⟨g, h1, rfl⟩ := List.mem_map.1 h
    exact hv _ (given_mem h1).2.1
  refine ⟨?_, ?_, fun hvne => ?_⟩
  · have e : (selectSql st.placeholder table columns values).2 = (given columns values).map Prod.snd := by simp [selectSql, whereLoop_given]
    rw [select, Dialect.execute, read_select values htable hcolumns hne, e]
    simp only [hb, if_true, Dialect.perform, ht]
    rfl
  · rw [delete, Dialect.execute, read_delete values htable hcolumns hne]
    have e : (deleteSql table columns values).2 = values := rfl
    simp only [e, List.all_eq_true.2 hv, if_true, Dialect.perform, ht]
    rfl
  · rw [insert, Dialect.execute, read_insert values htable hcolumns hne hvne]
    have e : (insertSql table columns values).2 = values := rfl
    simp only [e, List.all_eq_true.2 hv, if_true, Dialect.perform, ht]
    rfl

/-- **C85** (limit) An `insert` with another number of values than columns, or with a value that is no number, text or `None`, raises. -/
theorem C85_insert_raises (htable : d.Named table) (hcolumns : ∀ c ∈ columns, d.Named c) (hne : columns ≠ []) {values : List Value}
    (hvne : values ≠ []) (h : values.length ≠ columns.length ∨ ∃ v ∈ values, bindable v = false) :
    ∃ e, insert d table columns values db = .error e := by
  rw [insert, Dialect.execute, read_insert values htable hcolumns hne hvne]
  have e : (insertSql table columns values).2 = values := rfl
  simp only [e]
  by_cases hb : values.all bindable = true
  · rcases h with h | ⟨v, hv, hvb⟩
    · simp only [hb, if_true, Dialect.perform]
      cases db (fold table) with
      | none => exact ⟨_, rfl⟩
      | some t =>
        cases hm : columns.mapM t.position with
        | none => simp only [Option.bind_eq_bind, Option.bind_some, hm]; exact ⟨_, rfl⟩
        | some is => simp only [Option.bind_eq_bind, Option.bind_some, hm, h, false_and, and_false, if_false]; exact ⟨_, rfl⟩
    · rw [List.all_eq_true.1 hb v hv] at hvb
      cases hvb
  · simp only [hb]; exact ⟨_, rfl⟩

end

/-! ## The same answers as the in-memory data source -/

/-- A use of a data source. -/
inductive Use where
  | insert (table : String) (columns : List String) (values : List Value)
  | select (table : String) (columns : List String) (values : List Value)

/-- The characters of names. -/
def chars (xs : List String) : List Name := xs.map String.toList

/-- What the uses of an in-memory data source return, one after the other; nothing for an `insert`. -/
def inMemory : SimpleStore → List Use → List (Except Err (List (List Value)))
  | _, [] => []
  | s, .insert t cs vs :: us => .ok [] :: inMemory (s.insert t cs vs) us
  | s, .select t cs vs :: us => s.select t cs vs :: inMemory s us

/-- What the uses of an `Sqlite3DataSource` return. After an exception the database is as it was. -/
def inDatabase (d : Dialect) : Db → List Use → List (Except Err (List (List Value)))
  | _, [] => []
  | db, .insert t cs vs :: us => match insert d t.toList (chars cs) vs db with
    | .ok db' => .ok [] :: inDatabase d db' us
    | .error e => .error e :: inDatabase d db us
  | db, .select t cs vs :: us => select d .qmark t.toList (chars cs) vs db :: inDatabase d db us

/-- The tables and their columns: proper names that are different, also in small letters. -/
structure Schema (d : Dialect) (tables : Dict (List String)) : Prop where
  tables_named : ∀ t cs, tables.get t = some cs → d.Named t.toList
  tables_differ : ∀ t t' cs cs', tables.get t = some cs → tables.get t' = some cs' → fold t.toList = fold t'.toList → t = t'
  columns_named : ∀ t cs, tables.get t = some cs → ∀ c ∈ cs, d.Named c.toList
  columns_differ : ∀ t cs, tables.get t = some cs → ((chars cs).map fold).Nodup

/-- A use of a table of the schema: an `insert` gives a number or text for every column, in any order; a `select` is for different columns of
the table, and asks for numbers, texts or nothing. -/
def Regular (tables : Dict (List String)) : Use → Prop
  | .insert t cs vs => ∃ all, tables.get t = some all ∧ all ≠ [] ∧ cs.Perm all ∧ vs.length = cs.length ∧ ∀ v ∈ vs, bindable v = true ∧ v ≠ .none
  | .select t cs vs => ∃ all, tables.get t = some all ∧ cs ≠ [] ∧ cs.Nodup ∧ (∀ c ∈ cs, c ∈ all) ∧ ∀ v ∈ vs, bindable v = true

/-- A database with empty tables, those of the schema, without constraints. -/
def NewDb (tables : Dict (List String)) (db : Db) : Prop :=
  ∀ t cs, tables.get t = some cs → db (fold t.toList) = some ⟨chars cs, [], fun _ _ => false⟩

/-! ### Proofs -/

/-- The record has the values of the row. -/
def LikeRow (t : Table) (all : List String) (r : Dict Value) (row : List Value) : Prop :=
  ∀ c ∈ all, ∃ v, r.get c = some v ∧ v ≠ .none ∧ t.cell row c.toList = v

/-- The records have the values of the rows. -/
def Like (t : Table) (all : List String) : List (Dict Value) → List (List Value) → Prop
  | [], [] => True
  | r :: rs, w :: ws => LikeRow t all r w ∧ Like t all rs ws
  | _, _ => False

theorem Like.append {t : Table} {all : List String} : ∀ {rs rs' : List (Dict Value)} {ws ws' : List (List Value)}, Like t all rs ws → Like t all rs' ws' →
    Like t all (rs ++ rs') (ws ++ ws')
  | [], _, [], _, _, h => h
  | _ :: _, _, _ :: _, _, h, h' => ⟨h.1, Like.append h.2 h'⟩
  | [], _, _ :: _, _, h, _ => h.elim
  | _ :: _, _, [], _, h, _ => h.elim

theorem cell_rows (t : Table) (rows : List (List Value)) (row : List Value) (c : Name) : ({ t with rows := rows } : Table).cell row c = t.cell row c := rfl

theorem LikeRow.rows {t : Table} {all : List String} {r : Dict Value} {row : List Value} (rows : List (List Value)) (h : LikeRow t all r row) :
    LikeRow { t with rows := rows } all r row := h

theorem Like.rows {t : Table} {all : List String} (rows : List (List Value)) : ∀ {rs : List (Dict Value)} {ws : List (List Value)}, Like t all rs ws →
    Like { t with rows := rows } all rs ws
  | [], [], _ => trivial
  | _ :: _, _ :: _, h => ⟨h.1.rows rows, Like.rows rows h.2⟩
  | [], _ :: _, h => h.elim
  | _ :: _, [], h => h.elim

theorem cellOf_iff {cs : List String} {vs : List Value} (hn : cs.Nodup) {c : String} {v : Value} :
    cellOf cs vs c = some v ↔ (c, v) ∈ cs.zip vs ∧ v ≠ .none := by
  have key : ∀ {cs : List String} {vs : List Value} {c : String} {v v' : Value}, cs.Nodup → (c, v) ∈ cs.zip vs → (c, v') ∈ cs.zip vs → v = v' := by
    intro cs
    induction cs with
    | nil => intro vs c v v' _ h; simp at h
    | cons a cs ih =>
      intro vs c v v' hn h h'
      cases vs with
      | nil => simp at h
      | cons b vs =>
        rw [List.nodup_cons] at hn
        simp only [List.zip_cons_cons, List.mem_cons, Prod.mk.injEq] at h h'
        rcases h with ⟨rfl, rfl⟩ | h
        · rcases h' with ⟨_, rfl⟩ | h'
          · rfl
          · exact absurd (List.of_mem_zip h').1 hn.1
        · rcases h' with ⟨rfl, rfl⟩ | h'
          · exact absurd (List.of_mem_zip h).1 hn.1
          · exact ih hn.2 h h'
  simp only [cellOf]
  constructor
  · intro h
    obtain ⟨p, hp, rfl⟩ := Option.map_eq_some_iff.1 h
    have h1 := List.find?_some hp
    have h2 := List.mem_of_find?_eq_some hp
    simp only [decide_eq_true_eq] at h1
    rw [← h1.1]
    exact ⟨List.mem_reverse.1 h2, h1.2⟩
  · rintro ⟨h1, h2⟩
    cases hf : ((cs.zip vs).reverse.find? fun kv => decide (kv.1 = c ∧ kv.2 ≠ .none)) with
    | none =>
      rw [List.find?_eq_none] at hf
      exact absurd (hf (c, v) (List.mem_reverse.2 h1)) (by simp [h2])
    | some p =>
      have h3 := List.find?_some hf
      have h4 := List.mem_reverse.1 (List.mem_of_find?_eq_some hf)
      simp only [decide_eq_true_eq] at h3
      simp only [Option.map_some, Option.some.injEq]
      obtain ⟨p1, p2⟩ := p
      simp only at h3
      rw [h3.1] at h4
      exact key hn h4 h1

theorem chars_zip (cs : List String) (vs : List Value) : (chars cs).zip vs = (cs.zip vs).map fun p => (p.1.toList, p.2) := by
  induction cs generalizing vs with
  | nil => rfl
  | cons c cs ih =>
    cases vs with
    | nil => simp [chars]
    | cons v vs =>
      have := ih vs
      simp only [chars] at this
      simp [chars, this]

theorem recordOk_wanted {d : Dialect} (hsame : ∀ v u, d.same v u = decide (v = u)) {t : Table} {all cs : List String} {vs : List Value} (hn : cs.Nodup)
    (hc : ∀ c ∈ cs, c ∈ all) {r : Dict Value} {row : List Value} (h : LikeRow t all r row) :
    SimpleStore.recordOk (createDict cs vs) r = d.wanted t (chars cs) vs row := by
  rw [Bool.eq_iff_iff]
  simp only [SimpleStore.recordOk, List.all_eq_true, Dialect.wanted, chars_zip]
  constructor
  · intro hr p hp
    obtain ⟨q, hq, rfl⟩ := List.mem_map.1 hp
    by_cases hv : q.2 = .none
    · simp [hv]
    · have := hr (q.1, q.2) (Dict.mem_of_get (by rw [createDict_get, cellOf_iff hn]; exact ⟨hq, hv⟩))
      obtain ⟨v, h1, h2, h3⟩ := h q.1 (hc _ (List.of_mem_zip hq).1)
      simp only [h1, decide_eq_true_eq] at this
      simp [hv, h3, Dialect.equal, hsame, this]
  · rintro hw ⟨k, v⟩ hm
    have hg : (createDict cs vs).get k = some v := Dict.get_of_mem (createDictFrom_nodup [] _ _ (by simp [Dict.keys])) hm
    rw [createDict_get, cellOf_iff hn] at hg
    obtain ⟨u, h1, h2, h3⟩ := h k (hc _ (List.of_mem_zip hg.1).1)
    have := hw _ (List.mem_map.2 ⟨_, hg.1, rfl⟩)
    simpa [hg.2, h3, Dialect.equal, h2, hsame, h1] using this

theorem projectRecord_like {t : Table} {all : List String} {r : Dict Value} {row : List Value} (h : LikeRow t all r row) : ∀ {cs : List String},
    (∀ c ∈ cs, c ∈ all) → SimpleStore.projectRecord r cs = .ok ((chars cs).map (t.cell row))
  | [], _ => rfl
  | c :: cs, hc => by
    obtain ⟨v, h1, _, h3⟩ := h c (hc c (by simp))
    simp only [SimpleStore.projectRecord, h1, projectRecord_like h fun x hx => hc x (List.mem_cons_of_mem _ hx)]
    simp [chars, h3]

theorem selectLoop_like {d : Dialect} (hsame : ∀ v u, d.same v u = decide (v = u)) {t : Table} {all cs : List String} {vs : List Value} (hn : cs.Nodup)
    (hc : ∀ c ∈ cs, c ∈ all) : ∀ {rs : List (Dict Value)} {ws : List (List Value)}, Like t all rs ws →
    SimpleStore.selectLoop cs (createDict cs vs) rs = .ok ((ws.filter (d.wanted t (chars cs) vs)).map fun row => (chars cs).map (t.cell row))
  | [], [], _ => rfl
  | r :: rs, w :: ws, h => by
    rw [SimpleStore.selectLoop, recordOk_wanted hsame hn hc h.1, selectLoop_like hsame hn hc h.2, projectRecord_like h.1 hc]
    cases hw : d.wanted t (chars cs) vs w <;> simp [hw]
  | [], _ :: _, h => h.elim
  | _ :: _, [], h => h.elim

/-- The store and the database have the same contents. -/
def SameContents (tables : Dict (List String)) (s : SimpleStore) (db : Db) : Prop :=
  ∀ t all, tables.get t = some all → ∃ rows, db (fold t.toList) = some ⟨chars all, rows, fun _ _ => false⟩ ∧
    Like ⟨chars all, rows, fun _ _ => false⟩ all ((s.get t).getD []) rows

theorem chars_nodup {cs : List String} (h : cs.Nodup) : (chars cs).Nodup := by
  rw [List.Nodup, chars, List.pairwise_map]
  exact List.Pairwise.imp (fun h e => h (String.toList_inj.1 e)) h

section
variable {d : Dialect} {tables : Dict (List String)} {s : SimpleStore} {db : Db} {t : String} {cs : List String} {vs : List Value}

theorem like_select (hsame : ∀ v u, d.same v u = decide (v = u)) (hs : Schema d tables) (h : SameContents tables s db)
    (hr : Regular tables (.select t cs vs)) : select d .qmark t.toList (chars cs) vs db = s.select t cs vs := by
  obtain ⟨all, h1, h2, h3, h4, h5⟩ := hr
  obtain ⟨rows, e1, e2⟩ := h t all h1
  have hmem : ∀ c ∈ chars cs, ∃ x ∈ cs, x.toList = c := fun c hc => List.mem_map.1 hc
  rw [C85_select .qmark (hs.tables_named t all h1) (fun c hc => by
      obtain ⟨x, hx, rfl⟩ := hmem c hc
      exact hs.columns_named t all h1 x (h4 x hx)) (by simpa [chars] using h2) e1 (fun c hc => by
      obtain ⟨x, hx, rfl⟩ := hmem c hc
      exact List.mem_map.2 ⟨x.toList, List.mem_map.2 ⟨x, h4 x hx, rfl⟩, rfl⟩) h5]
  have := selectLoop_like (vs := vs) hsame h3 h4 e2
  rw [SimpleStore.select]
  cases hg : s.get t with
  | none =>
    rw [hg] at e2
    cases rows with
    | nil => rfl
    | cons => exact e2.elim
  | some rs =>
    rw [hg] at this
    exact this.symm

theorem store_insert_get (t u : String) : ((s.insert t cs vs).get u).getD [] = if u = t then (s.get t).getD [] ++ [createDict cs vs] else (s.get u).getD [] := by
  simp only [SimpleStore.insert]
  have hs : ((if s.has t = true then s else s.set t []).get t).getD [] = (s.get t).getD [] := by
    split
    · rfl
    · rename_i hh
      have : s.get t = none := by simpa [Dict.has] using hh
      simp [this]
  rw [Dict.get_set, hs]
  by_cases e : t = u
  · subst e; simp
  · have : ((if s.has t = true then s else s.set t []).get u) = s.get u := by
      split
      · rfl
      · rw [Dict.get_set, if_neg e]
    rw [if_neg e, if_neg (Ne.symm e), this]

theorem like_insert (hs : Schema d tables) (h : SameContents tables s db) (hr : Regular tables (.insert t cs vs)) :
    ∃ db', insert d t.toList (chars cs) vs db = .ok db' ∧ SameContents tables (s.insert t cs vs) db' := by
  obtain ⟨all, h1, h2, h3, h4, h5⟩ := hr
  obtain ⟨rows, e1, e2⟩ := h t all h1
  have hmem : ∀ c ∈ chars cs, ∃ x ∈ all, x.toList = c := fun c hc => by
    obtain ⟨x, hx, e⟩ := List.mem_map.1 hc
    exact ⟨x, h3.mem_iff.1 hx, e⟩
  have hperm : ((chars cs).map fold).Perm ((chars all).map fold) := (h3.map _).map _
  have hnd : cs.Nodup := by
    have := hperm.nodup_iff.2 (hs.columns_differ t all h1)
    rw [List.Nodup, chars, List.map_map, List.pairwise_map] at this
    exact List.Pairwise.imp (fun h e => h (by rw [e])) this
  obtain ⟨row, r1, r2, r3, r4⟩ := C85_insert (hs.tables_named t all h1) (fun c hc => by
      obtain ⟨x, hx, rfl⟩ := hmem c hc
      exact hs.columns_named t all h1 x hx) (by
        intro e
        rw [chars, List.map_eq_nil_iff] at e
        rw [e] at h3
        exact h2 h3.symm.eq_nil) e1 (fun c hc => by
      obtain ⟨x, hx, rfl⟩ := hmem c hc
      exact List.mem_map.2 ⟨x.toList, List.mem_map.2 ⟨x, hx, rfl⟩, rfl⟩) (hperm.nodup_iff.2 (hs.columns_differ t all h1)) (fun v hv => (h5 v hv).1)
      (by simpa [chars] using h4)
  refine ⟨_, r4, fun u all' hu => ?_⟩
  simp only [Bool.false_eq_true, if_false, Db.put, store_insert_get]
  by_cases he : u = t
  · subst he
    rw [h1] at hu
    cases hu
    refine ⟨rows ++ [row], by simp, ?_⟩
    rw [if_pos rfl]
    refine (e2.rows (rows ++ [row])).append ⟨?_, trivial⟩
    intro c hc
    obtain ⟨j, hj⟩ := List.getElem?_of_mem (h3.mem_iff.2 hc)
    have hlt := (List.getElem?_eq_some_iff.1 hj).1
    have hv : vs[j]? = some (vs[j]'(by omega)) := List.getElem?_eq_getElem (by omega)
    have hvn := (h5 _ (List.mem_of_getElem? hv)).2
    refine ⟨_, ?_, hvn, r2 j c.toList _ (by simp [chars, hj]) hv⟩
    rw [createDict_get, cellOf_iff hnd]
    refine ⟨List.mem_of_getElem? (i := j) ?_, hvn⟩
    rw [List.getElem?_zip_eq_some]
    exact ⟨hj, hv⟩
  · obtain ⟨rows', f1, f2⟩ := h u all' hu
    refine ⟨rows', ?_, by rw [if_neg he]; exact f2⟩
    rw [if_neg fun e => he (hs.tables_differ u t all' all hu h1 e), f1]

/-- **C85** Any history of uses gives the same results with an `Sqlite3DataSource` as with the in-memory data source: the same rows in the
same order. This needs that `insert`s are complete (see `C85_missing_value`) and that the engine compares values exactly. -/
theorem C85_like_memory (hsame : ∀ v u, d.same v u = decide (v = u)) (hs : Schema d tables) (hnew : NewDb tables db) (us : List Use)
    (hu : ∀ u ∈ us, Regular tables u) : inDatabase d db us = inMemory SimpleStore.clear us := by
  have key : ∀ (us : List Use) (s : SimpleStore) (db : Db), SameContents tables s db → (∀ u ∈ us, Regular tables u) → inDatabase d db us = inMemory s us := by
    intro us
    induction us with
    | nil => intros; rfl
    | cons u us ih =>
      intro s db h hu
      have hrest : ∀ x ∈ us, Regular tables x := fun x hx => hu x (List.mem_cons_of_mem _ hx)
      cases u with
      | insert t cs vs =>
        obtain ⟨db', e1, e2⟩ := like_insert hs h (hu (.insert t cs vs) List.mem_cons_self)
        simp only [inDatabase, inMemory, e1, ih _ _ e2 hrest]
      | select t cs vs => simp only [inDatabase, inMemory, like_select hsame hs h (hu (.select t cs vs) List.mem_cons_self), ih _ _ h hrest]
  exact key us _ db (fun t all h => ⟨[], hnew t all h, by simp [SimpleStore.clear, Like]⟩) hu

end

/-! ## The effects that the memory modules are modelled with -/

/-- The database has the tables of the schema with the given rows, no constraints, and complete rows. -/
def Stores (tables : Dict (List String)) (sdb : SqlDb) (db : Db) : Prop :=
  ∀ t all, tables.get t = some all → ∃ rows, sdb.get t = some rows ∧ db (fold t.toList) = some ⟨chars all, rows, fun _ _ => false⟩ ∧
    ∀ row ∈ rows, row.length = all.length

theorem position_own {t : Table} (hn : (t.columns.map fold).Nodup) {i : Nat} {c : Name} (h : t.columns[i]? = some c) : t.position c = some i := by
  have hm : t.Has c := List.mem_map.2 ⟨c, List.mem_of_getElem? h, rfl⟩
  have h1 := Table.position_spec (Table.position_pos hm)
  have h2 : (t.columns.map fold)[i]? = some (fold c) := by rw [List.getElem?_map, h]; rfl
  rw [Table.position_pos hm]
  obtain ⟨l1, g1⟩ := List.getElem?_eq_some_iff.1 h1
  obtain ⟨l2, g2⟩ := List.getElem?_eq_some_iff.1 h2
  rcases Nat.lt_trichotomy (t.pos c) i with h | h | h
  · exact absurd (g1.trans g2.symm) (List.pairwise_iff_getElem.1 hn _ _ l1 l2 h)
  · rw [h]
  · exact absurd (g2.trans g1.symm) (List.pairwise_iff_getElem.1 hn _ _ l2 l1 h)

theorem cells_own {t : Table} (hn : (t.columns.map fold).Nodup) {row : List Value} (hl : row.length = t.columns.length) :
    t.columns.map (t.cell row) = row := by
  apply List.ext_getElem?
  intro i
  rw [List.getElem?_map]
  cases h : t.columns[i]? with
  | none =>
    rw [List.getElem?_eq_none_iff] at h
    simp [List.getElem?_eq_none (by omega : row.length ≤ i)]
  | some c =>
    have hi := (List.getElem?_eq_some_iff.1 h).1
    simp [Table.cell, position_own hn h, at', List.getElem?_eq_getElem (by omega : i < row.length)]

theorem zip_all {α : Type} (f : Name → α) (g : α → Value → Bool) (cs : List Name) (vs : List Value) :
    ((cs.zip vs).all fun p => g (f p.1) p.2) = ((cs.map f).zip vs).all fun p => g p.1 p.2 := by
  induction cs generalizing vs with
  | nil => rfl
  | cons c cs ih =>
    cases vs with
    | nil => rfl
    | cons v vs => simp [ih vs]

theorem rowMatches_zip (row vs : List Value) : rowMatches vs row = (row.zip vs).all fun p => decide (p.2 = .none) || decide (p.2 = p.1) := by
  induction vs generalizing row with
  | nil => simp [rowMatches]
  | cons v vs ih =>
    cases row with
    | nil => simp [rowMatches]
    | cons r row => simp [rowMatches, ih]

theorem sqlEq_zip (row vs : List Value) : SqlDb.sqlEq vs row = (row.zip vs).all fun p => decide (p.2 ≠ .none) && decide (p.2 = p.1) := by
  induction vs generalizing row with
  | nil => cases row <;> simp [SqlDb.sqlEq]
  | cons v vs ih =>
    cases row with
    | nil => simp [SqlDb.sqlEq]
    | cons r row => simp [SqlDb.sqlEq, ih]

section
variable {d : Dialect} {tables : Dict (List String)} {sdb : SqlDb} {db : Db} {t : String} {all : List String} {vs : List Value}

theorem wanted_own (hsame : ∀ v u, d.same v u = decide (v = u)) {tab : Table} (hn : (tab.columns.map fold).Nodup) {row : List Value}
    (hl : row.length = tab.columns.length) : d.wanted tab tab.columns vs row = rowMatches vs row := by
  rw [Dialect.wanted, zip_all (tab.cell row) (fun u v => decide (v = .none) || d.equal u v), cells_own hn hl, rowMatches_zip]
  congr 1
  funext p
  by_cases h : p.2 = .none
  · simp [h]
  · simp only [h, decide_false, Bool.false_or, Dialect.equal, hsame, decide_not, Bool.not_false, Bool.and_true]
    by_cases e : p.1 = p.2
    · simp [e, h]
    · simp [e, Ne.symm e]

theorem matching_own (hsame : ∀ v u, d.same v u = decide (v = u)) {tab : Table} (hn : (tab.columns.map fold).Nodup) {row : List Value}
    (hl : row.length = tab.columns.length) : d.matching tab tab.columns vs row = SqlDb.sqlEq vs row := by
  rw [Dialect.matching, zip_all (tab.cell row) d.equal, cells_own hn hl, sqlEq_zip]
  congr 1
  funext p
  simp only [Dialect.equal, hsame, decide_not]
  by_cases e : p.1 = p.2
  · simp [e]
  · simp [e, Ne.symm e]

theorem own_columns (hs : Schema d tables) (ht : tables.get t = some all) : (∀ c ∈ chars all, d.Named c) ∧ ((chars all).map fold).Nodup :=
  ⟨fun c hc => by
    obtain ⟨x, hx, rfl⟩ := List.mem_map.1 hc
    exact hs.columns_named t all ht x hx, hs.columns_differ t all ht⟩

theorem Stores.put (hs : Schema d tables) (h : Stores tables sdb db) (ht : tables.get t = some all) {rows : List (List Value)}
    (hr : ∀ row ∈ rows, row.length = all.length) :
    Stores tables (sdb.set t rows) (db.put t.toList ⟨chars all, rows, fun _ _ => false⟩) := by
  intro u all' hu
  by_cases he : t = u
  · subst he
    rw [ht] at hu
    cases hu
    exact ⟨rows, Dict.get_set_self .., by simp [Db.put], hr⟩
  · obtain ⟨rows', f1, f2, f3⟩ := h u all' hu
    refine ⟨rows', by rw [Dict.get_set, if_neg he, f1], ?_, f3⟩
    rw [Db.put, if_neg fun e => he (hs.tables_differ u t all' all hu ht e).symm, f2]

/-- **C85** The effects with which the memory modules are modelled (`SqlDb.select`, `SqlDb.insert` and `SqlDb.delete`) are those of the statements
that `Sqlite3DataSource` sends for all columns of a table, when the table has no constraints and values are compared exactly. -/
theorem C85_memory_effects (hsame : ∀ v u, d.same v u = decide (v = u)) (hs : Schema d tables) (h : Stores tables sdb db)
    (ht : tables.get t = some all) (hne : all ≠ []) (hv : ∀ v ∈ vs, bindable v = true) :
    select d .qmark t.toList (chars all) vs db = sdb.select t vs ∧
    (vs.length = all.length → ∃ sdb' db', insert d t.toList (chars all) vs db = .ok db' ∧ sdb.insert t vs = .ok sdb' ∧ Stores tables sdb' db') ∧
    (vs.length = all.length → ∃ sdb' db', delete d t.toList (chars all) vs db = .ok db' ∧ sdb.delete t vs = .ok sdb' ∧ Stores tables sdb' db') := by
  obtain ⟨rows, e1, e2, e3⟩ := h t all ht
  obtain ⟨o1, o2⟩ := own_columns hs ht
  have hne' : chars all ≠ [] := by simpa [chars] using hne
  have hhas : ∀ c ∈ chars all, Table.Has ⟨chars all, rows, fun _ _ => false⟩ c := fun c hc => List.mem_map.2 ⟨c, hc, rfl⟩
  have hlen : ∀ row ∈ rows, row.length = (chars all).length := fun row hrow => by simpa [chars] using e3 row hrow
  refine ⟨?_, fun hl => ?_, fun hl => ?_⟩
  · rw [C85_select .qmark (hs.tables_named t all ht) o1 hne' e2 hhas hv, SqlDb.select, e1]
    simp only
    congr 1
    rw [List.filter_congr fun row hrow => wanted_own (tab := ⟨chars all, rows, fun _ _ => false⟩) hsame o2 (hlen row hrow)]
    conv => rhs; rw [← List.map_id (rows.filter (rowMatches vs))]
    apply List.map_congr_left
    intro row hrow
    exact cells_own (t := ⟨chars all, rows, fun _ _ => false⟩) o2 (hlen row (List.mem_filter.1 hrow).1)
  · obtain ⟨row, r1, r2, _, r4⟩ := C85_insert (hs.tables_named t all ht) o1 hne' e2 hhas o2 hv (by simpa [chars] using hl)
    simp only [Bool.false_eq_true, if_false] at r4
    have hrow : row = vs := by
      have := cells_own (t := ⟨chars all, rows, fun _ _ => false⟩) o2 r1
      rw [← this]
      apply List.ext_getElem?
      intro j
      rw [List.getElem?_map]
      cases hj : (chars all)[j]? with
      | none =>
        rw [List.getElem?_eq_none_iff] at hj
        have : vs.length ≤ j := by simp [chars] at hj; omega
        simp [List.getElem?_eq_none this]
      | some c =>
        have hlt := (List.getElem?_eq_some_iff.1 hj).1
        have hlt' : j < vs.length := by simp [chars] at hlt; omega
        have hv' : vs[j]? = some vs[j] := List.getElem?_eq_getElem hlt'
        rw [hv', Option.map_some, r2 j c _ hj hv']
    subst hrow
    refine ⟨_, _, r4, by rw [SqlDb.insert, e1], ?_⟩
    refine h.put hs ht fun r hr => ?_
    rcases List.mem_append.1 hr with hr | hr
    · exact e3 r hr
    · rw [List.mem_singleton.1 hr]; exact hl
  · refine ⟨_, _, C85_delete (hs.tables_named t all ht) o1 hne' e2 hhas hv (by simpa [chars] using hl), by rw [SqlDb.delete, e1], ?_⟩
    have hf : (rows.filter fun row => !d.matching ⟨chars all, rows, fun _ _ => false⟩ (chars all) vs row) = rows.filter fun row => !SqlDb.sqlEq vs row :=
      List.filter_congr fun row hrow => by
        rw [matching_own (tab := ⟨chars all, rows, fun _ _ => false⟩) hsame o2 (hlen row hrow)]
    simp only [hf]
    exact h.put hs ht fun r hr => e3 r (List.mem_filter.1 hr).1

/-- **C85** (limit) An empty value makes the difference: the database returns the row with `None`, the in-memory data source raises a `KeyError`. -/
theorem C85_missing_value {c : String} (hs : Schema d tables) (hnew : NewDb tables db) (ht : tables.get t = some [c]) :
    inDatabase d db [.insert t [c] [.none], .select t [c] [.none]] = [.ok [], .ok [[.none]]] ∧
    inMemory SimpleStore.clear [.insert t [c] [.none], .select t [c] [.none]] = [.ok [], .error .keyError] := by
  obtain ⟨o1, o2⟩ := own_columns hs ht
  have hhas : ∀ rows, ∀ x ∈ chars [c], Table.Has ⟨chars [c], rows, fun _ _ => false⟩ x := fun rows x hx => List.mem_map.2 ⟨x, hx, rfl⟩
  have hv : ∀ v ∈ [Value.none], bindable v = true := by simp [bindable]
  obtain ⟨row, r1, r2, _, r4⟩ := C85_insert (hs.tables_named t _ ht) o1 (by simp [chars]) (hnew t _ ht) (hhas []) o2 hv (by simp [chars])
  simp only [Bool.false_eq_true, if_false, List.nil_append] at r4
  have hcell := r2 0 c.toList .none (by simp [chars]) rfl
  constructor
  · simp only [inDatabase, r4]
    rw [C85_select .qmark (hs.tables_named t _ ht) o1 (by simp [chars]) (t := ⟨chars [c], [row], fun _ _ => false⟩) (by simp [Db.put]) (hhas [row]) hv]
    have hw : d.wanted ⟨chars [c], [row], fun _ _ => false⟩ (chars [c]) [.none] row = true := by simp [Dialect.wanted, chars]
    have hcell' : Table.cell ⟨chars [c], [row], fun _ _ => false⟩ row c.toList = .none := hcell
    have hf : [row].filter (d.wanted ⟨chars [c], [row], fun _ _ => false⟩ (chars [c]) [.none]) = [row] := by rw [List.filter_cons, hw]; rfl
    have hm : (chars [c]).map (Table.cell ⟨chars [c], [row], fun _ _ => false⟩ row) = [.none] := by
      rw [← hcell']
      rfl
    simp only [hf, List.map_cons, List.map_nil] at hm ⊢
    simp only [hm]
  · simp [inMemory, SimpleStore.insert, SimpleStore.clear, SimpleStore.select, createDict, createDictFrom, Dict.has,
      SimpleStore.selectLoop, SimpleStore.recordOk, SimpleStore.projectRecord, Dict.set, Dict.get]

end

/-! ### An example: the tables of `richard/module/BasicDialogContext.py:52-53`, and one with a constraint -/

namespace Ex

/-- Some reserved words; values are compared exactly. -/
def dialect : Dialect := ⟨fun w => [['o', 'r', 'd', 'e', 'r'], ['t', 'a', 'b', 'l', 'e']].contains w, fun v u => decide (v = u)⟩

def dialogTables : Dict (List String) := [("dialog_isa", ["entity", "type"]), ("context", ["name"])]

def dialogDb : Db := fun u =>
  if u = fold "dialog_isa".toList then some ⟨chars ["entity", "type"], [], fun _ _ => false⟩
  else if u = fold "context".toList then some ⟨chars ["name"], [], fun _ _ => false⟩
  else none

theorem dialog_get {t : String} {cs : List String} (h : dialogTables.get t = some cs) :
    (t = "dialog_isa" ∧ cs = ["entity", "type"]) ∨ (t = "context" ∧ cs = ["name"]) := by
  simp only [dialogTables, Dict.get] at h
  split at h
  · rename_i e; cases h; exact .inl ⟨e.symm, rfl⟩
  · split at h
    · rename_i e; cases h; exact .inr ⟨e.symm, rfl⟩
    · cases h

theorem dialog_schema : Schema dialect dialogTables where
  tables_named := fun t cs h => by rcases dialog_get h with ⟨rfl, rfl⟩ | ⟨rfl, rfl⟩ <;> exact ⟨by decide +kernel, by decide +kernel⟩
  tables_differ := fun t t' cs cs' h h' e => by
    rcases dialog_get h with ⟨rfl, rfl⟩ | ⟨rfl, rfl⟩ <;> rcases dialog_get h' with ⟨rfl, rfl⟩ | ⟨rfl, rfl⟩
    · rfl
    · exact absurd e (by decide +kernel)
    · exact absurd e (by decide +kernel)
    · rfl
  columns_named := fun t cs h c hc => by
    rcases dialog_get h with ⟨rfl, rfl⟩ | ⟨rfl, rfl⟩
    · simp only [List.mem_cons, List.not_mem_nil, or_false] at hc
      rcases hc with rfl | rfl <;> exact ⟨by decide +kernel, by decide +kernel⟩
    · simp only [List.mem_cons, List.not_mem_nil, or_false] at hc
      subst hc
      exact ⟨by decide +kernel, by decide +kernel⟩
  columns_differ := fun t cs h => by rcases dialog_get h with ⟨rfl, rfl⟩ | ⟨rfl, rfl⟩ <;> decide +kernel

theorem dialog_new : NewDb dialogTables dialogDb := by
  intro t cs h
  rcases dialog_get h with ⟨rfl, rfl⟩ | ⟨rfl, rfl⟩
  · rfl
  · rw [dialogDb, if_neg (by decide +kernel), if_pos rfl]

/-- The statement for a value and a column that is left open. -/
example : selectSql ['?'] "dialog_isa".toList (chars ["entity", "type"]) [.none, .str "river"] =
    ("SELECT entity,type FROM dialog_isa WHERE TRUE AND type=?".toList, [.str "river"]) := by decide +kernel

/-- Uses of the two tables, with columns in another order. -/
def dialogUses : List Use :=
  [.insert "dialog_isa" ["entity", "type"] [.str "a", .str "river"], .insert "dialog_isa" ["type", "entity"] [.str "sea", .str "b"],
   .select "dialog_isa" ["type", "entity"] [.str "river"], .insert "context" ["name"] [.num 3], .select "context" ["name"] [.none]]

example : inDatabase dialect dialogDb dialogUses = [.ok [], .ok [], .ok [[.str "river", .str "a"]], .ok [], .ok [[.num 3]]] := by decide +kernel

example : inDatabase dialect dialogDb dialogUses = inMemory SimpleStore.clear dialogUses := by
  refine C85_like_memory (fun _ _ => rfl) dialog_schema dialog_new _ ?_
  intro u hu
  simp only [dialogUses, List.mem_cons, List.not_mem_nil, or_false] at hu
  rcases hu with rfl | rfl | rfl | rfl | rfl
  · exact ⟨_, rfl, by decide, by decide +kernel, rfl, by decide⟩
  · exact ⟨_, rfl, by decide, by decide +kernel, rfl, by decide⟩
  · exact ⟨_, rfl, by decide, by decide, by decide, by decide⟩
  · exact ⟨_, rfl, by decide, by decide +kernel, rfl, by decide⟩
  · exact ⟨_, rfl, by decide, by decide, by decide, by decide⟩

example := (C85_memory_effects (d := dialect) (tables := dialogTables) (sdb := dialogInit) (db := dialogDb) (t := "dialog_isa") (vs := [.str "a", .none])
  (fun _ _ => rfl) dialog_schema (fun t cs h => by
    rcases dialog_get h with ⟨rfl, rfl⟩ | ⟨rfl, rfl⟩
    · exact ⟨[], rfl, dialog_new _ _ rfl, by simp⟩
    · exact ⟨[], rfl, dialog_new _ _ rfl, by simp⟩) rfl (by simp) (by decide)).2.1 rfl

example := C85_missing_value (t := "context") (c := "name") dialog_schema dialog_new rfl

/-- `CREATE TABLE river (id TEXT PRIMARY KEY, flows_through TEXT)` (`tests/integration/hello_world/HelloWorldDB.py:15`), with two rows. -/
def rivers : Table := ⟨chars ["id", "flows_through"], [[.str "rhine", .str "germany"], [.str "amstel", .none]],
  fun rows row => rows.any fun r => decide (at' r 0 = at' row 0)⟩

def riverDb : Db := fun u => if u = "river".toList then some rivers else none

theorem river_db : riverDb (fold "River".toList) = some rivers := by rw [riverDb, if_pos (by decide +kernel)]

theorem river_named : dialect.Named "River".toList ∧ ∀ c ∈ chars ["FLOWS_THROUGH", "id"], dialect.Named c := by
  refine ⟨⟨by decide +kernel, by decide +kernel⟩, fun c hc => ?_⟩
  simp only [chars, List.map_cons, List.map_nil, List.mem_cons, List.not_mem_nil, or_false] at hc
  rcases hc with rfl | rfl <;> exact ⟨by decide +kernel, by decide +kernel⟩

theorem river_has : ∀ c ∈ chars ["FLOWS_THROUGH", "id"], rivers.Has c := by
  intro c hc
  simp only [chars, List.map_cons, List.map_nil, List.mem_cons, List.not_mem_nil, or_false] at hc
  rcases hc with rfl | rfl <;> (simp only [Table.Has]; decide +kernel)

/-- Capitals do not matter; an empty cell is found when nothing is asked of it. -/
example : select dialect .percent "River".toList (chars ["FLOWS_THROUGH", "id"]) [.none, .str "amstel"] riverDb = .ok [[.none, .str "amstel"]] := by
  rw [C85_select .percent river_named.1 river_named.2 (by simp [chars]) (t := rivers) river_db river_has (by decide)]
  decide +kernel

/-- It is not found when a value is asked. -/
example : select dialect .qmark "River".toList (chars ["FLOWS_THROUGH", "id"]) [.str "germany"] riverDb = .ok [[.str "germany", .str "rhine"]] := by
  rw [C85_select .qmark river_named.1 river_named.2 (by simp [chars]) (t := rivers) river_db river_has (by decide)]
  decide +kernel

/-- A second row for the same river is ignored; one for another river is added. -/
example : (insert dialect "River".toList (chars ["FLOWS_THROUGH", "id"]) [.str "france", .str "rhine"] riverDb).map (fun db => (db "river".toList).map Table.rows) =
      .ok (some rivers.rows) ∧
    (insert dialect "River".toList (chars ["FLOWS_THROUGH", "id"]) [.str "france", .str "seine"] riverDb).map (fun db => (db "river".toList).map Table.rows) =
      .ok (some (rivers.rows ++ [[.str "seine", .str "france"]])) := by decide +kernel

example := C85_insert (values := [.str "france", .str "seine"]) river_named.1 river_named.2 (by simp [chars]) (db := riverDb) (t := rivers) river_db
  river_has (by decide +kernel) (by decide) rfl

example := C85_delete (values := [.none, .str "amstel"]) river_named.1 river_named.2 (by simp [chars]) (db := riverDb) (t := rivers) river_db
  river_has (by decide) rfl

example := C85_delete_none (values := [.none, .str "amstel"]) river_named.1 river_named.2 (by simp [chars]) (db := riverDb) (t := rivers) river_db
  river_has (by decide) rfl (by simp)

example := C85_no_columns (db := riverDb) .qmark river_named.1 [.str "a"]

example := C85_unknown_table (db := fun _ => none) (values := [.num 1]) .percent river_named.1 river_named.2 (by simp [chars]) rfl (by decide)

example := C85_insert_raises (db := riverDb) (values := [.str "a", .list []]) river_named.1 river_named.2 (by simp [chars]) (by simp) (.inr ⟨.list [], by simp, rfl⟩)

end Ex

end Verif.Sql

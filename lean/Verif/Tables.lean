import Verif.Solver

/-!
# Relations backed by stored rows
-/

namespace Verif

/-- A row agrees with the given values wherever these are not `None`.
Models the filter of `richard/data_source/SimpleDataSource.py:38-46` for records that have all their columns. -/
def rowMatches : List Value → List Value → Bool
  | [], _ => true
  | _ :: _, [] => true
  | v :: vs, r :: rs => (decide (v = .none) || decide (v = r)) && rowMatches vs rs

/-- A relation whose query function selects from a fixed list of rows, as the modules built on a data source do:
`richard/module/SimpleMemoryModule.py:30-31` calling `richard/data_source/SimpleDataSource.py:29-48`. -/
def tableRelation (W : Type) (p : String) (rows : List (List Value)) : Relation W where
  predicate := p
  query := fun values _ => pure (.rows (rows.filter (rowMatches values)))

/-- A module with one such relation per table. Models a `SomeModule` (`richard/interface/SomeModule.py:6-20`) whose
relations are all of this kind. -/
def tableModule (W : Type) (db : Dict (List (List Value))) : Module W where
  relations := fun _ p => (db.get p).map (tableRelation W p)

end Verif

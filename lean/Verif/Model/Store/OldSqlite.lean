/-
Model of `legacy_rename_labels` and `legacy_drop_labels` (`src/toron/dal1/label_manager.py` lines 114-331), which do for
old versions of SQLite what `rename_index_columns` and `drop_index_columns` do for newer ones: the three tables with
labels are built again.

Column names with NUL or surrogates, which `format_identifier` refuses, are left out.
-/
import Verif.Model.Store.Ops

namespace Toron.Space

open Toron.Selectors (PyStr)

/-- `PRAGMA foreign_key_check` finds nothing (`schema.py` lines 377-403); the foreign keys are those of lines 157-208. -/
def Store.foreignKeyCheck (s : Store) : Bool :=
  s.weights.all (fun w => s.wgroups.any (fun g => g.id == w.group) && s.index.any (fun r => r.id == w.index)) &&
  s.quants.all (fun q => s.locs.any (fun l => l.id == q.loc) && s.agroups.any (fun g => g.id == q.ag)) &&
  s.maps.all (fun m => s.links.any (fun l => l.id == m.link) && s.index.any (fun r => r.id == m.index))

/-- The names of the fixed columns of the three tables. -/
def fixedNames : List PyStr := ["index_id", "_location_id", "_structure_id", "_granularity"].map String.toList

/-- The tables are dropped and made again with the columns `cols` (`label_manager.py` lines 164-205, 275-316). The rows
of `label_index` are copied into a table that is new to AUTOINCREMENT, so that the largest id in use is all it knows;
the counter of the old table goes with the table. `CREATE TABLE` needs a column besides the id, and refuses names that
are equal ignoring case. -/
def Store.rebuilt (s : Store) (cols : List PyStr) (keep : {β : Type} → List β → List β) : Except Err Store :=
  if cols = [] then .error (.operationalError "syntax error")
  else if ¬ ((cols ++ fixedNames).map asciiLower).Nodup then .error (.operationalError "duplicate column name")
  else
    let s := { s with
      cols := cols,
      index := s.index.map (fun r => { r with labels := keep r.labels }),
      seq := (s.index.map (·.id)).foldr max 0,
      locs := s.locs.map (fun r => { r with labels := keep r.labels }),
      structs := s.structs.map (fun r => { r with bits := keep r.bits }) }
    if ¬ s.foreignKeyCheck then .error (.runtimeError "foreign key violations")
    else (checkUnique s).map (·.2)

/-- The outcome of the transaction, after which foreign keys are switched on (`label_manager.py` lines 162-164, 214-221,
270-272, 324-331). -/
def withKeysOn (s : Store) (r : Except Err Store) : Store × Except Err Unit :=
  match r with
  | .ok s' => ({ s' with fk := true }, .ok ())
  | .error e => ({ s with fk := true }, .error e)

/-- `legacy_rename_labels` (`label_manager.py` lines 114-221). -/
def legacyRename (mapping : List (PyStr × PyStr)) (s : Store) : Store × Except Err Unit :=
  match validateNewColumns (mapping.map (·.2)) s with
  | .error e => (s, .error e)
  | .ok _ =>
    if ∃ p ∈ mapping, p.1 ∈ reservedNames then (s, .error (.valueError "reserved identifier"))
    else if ¬ (s.cols.map (renamed mapping)).Nodup then (s, .error (.valueError "cannot create duplicate columns"))
    else withKeysOn s ((s.rebuilt (s.cols.map (renamed mapping)) id).map fun s =>
      { s with partDefs := s.partDefs.map fun ds => ds.map fun d => d.image (renamed mapping) })

/-- `legacy_drop_labels` (`label_manager.py` lines 224-331). -/
def legacyDrop (names : List PyStr) (s : Store) : Store × Except Err Unit :=
  if ∃ c ∈ names, c ∈ reservedNames then (s, .error (.valueError "reserved identifier"))
  else if ∀ c ∈ s.cols, c ∈ names then (s, .error (.runtimeError "cannot delete all columns"))
  else withKeysOn s (s.rebuilt (s.cols.filter fun c => decide (c ∉ names)) (keepCols s.cols names))

end Toron.Space

/-
Model of `rename_index_columns` of a legacy node with SQLite before 3.25.0: `DataAccessLayerPre25`
(`src/toron/_dal.py` lines 3334-3407).

The three label tables are built anew. With newer versions columns are renamed one by one (`Node.renameIndexColumns` in
`Model/Legacy/Node`).
-/
import Verif.Model.Legacy.Node

namespace Toron.Legacy

open Toron.Selectors (PyStr)
open Toron.Space (asciiLower)

/-- What `SELECT name` gives for a row: SQLite does not distinguish upper and lower case in names. -/
def cellNamed {α : Type} (cols : List PyStr) (cells : List α) (name : PyStr) : Option α :=
  ((cols.map asciiLower).zip cells).lookup (asciiLower name)

/-- The greatest id, which `AUTOINCREMENT` continues with once the rows were copied (`_dal.py` lines 3352-3356). -/
def Node.lastId (n : Node) : Nat := (n.index.map (·.id)).foldr max 0

/-- The tables with the columns selected by their old names (`_dal.py` lines 3351-3374). -/
def Node.rebuilt (n : Node) (old new : List PyStr) : Node :=
  { n with
    cols := new
    seq := n.lastId
    index := n.index.map fun r => { r with labels := old.filterMap (cellNamed n.cols r.labels) }
    locs := n.locs.map fun r => { r with labels := old.filterMap (cellNamed n.cols r.labels) }
    structs := n.structs.map fun r => { r with bits := old.filterMap (cellNamed n.cols r.bits) } }

/-- `rename_index_columns` (`_dal.py` lines 3383-3407) with `_rename_index_columns_apply_mapper` (lines 523-550). Without columns
the statement that creates the table is not well-formed. A name that is no column is taken for a text by SQLite, which the
table `structure` does not accept. -/
def Node.renameByRebuilding (mapper : PyStr → PyStr) (n : Node) : Except Err Node := do
  let old ← n.cols.mapM normName
  let new ← (n.cols.map mapper).mapM normName
  if ¬ new.Nodup then .error (.valueError "column name collisions")
  else if n.cols = [] then .error (.operationalError "syntax error")
  else if ¬ (sqlNames new).Nodup then .error (.operationalError "duplicate column name")
  else if ¬ old.all fun c => n.cols.any fun d => asciiLower d == asciiLower c then .error (.integrityError "CHECK")
  else do
    (n.rebuilt old new).checkUnique
    .ok (n.rebuilt old new)

end Toron.Legacy

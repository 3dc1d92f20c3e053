/-
Model of `remove_index_columns` of a legacy node with SQLite before 3.35.0: `DataAccessLayerPre35`
(`src/toron/_dal.py` lines 3223-3331).

The three label tables are built anew without the columns. For a node without links, as `Node.removeIndexColumns` in
`Model/Legacy/Remove`. The check of foreign keys at the end (lines 3320-3325) is modelled.
-/
import Verif.Model.Legacy.Remove
import Verif.Model.Legacy.Rename

namespace Toron.Legacy

open Toron.Selectors (PyStr)

/-- `PRAGMA foreign_key_check` (`_dal.py` lines 3320-3325; the keys are in `_schema.py` lines 136-166). -/
def Node.checkKeys (n : Node) : Except Err Unit :=
  if (n.weights.all fun w => (n.index.any fun r => r.id == w.index) && n.weightings.any fun g => g.id == w.group) &&
      n.quants.all fun q => (n.locs.any fun l => l.id == q.loc) && n.attrs.any fun a => a.id == q.ag then .ok ()
  else .error (.exception "foreign key violations")

/-- `_remove_index_columns_make_sql` (`_dal.py` lines 3252-3294), executed: the remaining columns are copied, and `AUTOINCREMENT`
continues with the greatest id that is copied. -/
def Node.copyColumns (drop : List PyStr) (n : Node) : Except Err Node :=
  { n with seq := n.lastId }.dropColumns drop

/-- `remove_index_columns` (`_dal.py` lines 3296-3331). Only the names of the remaining columns are written without quotes
(`_dal.py` lines 1025, 3260-3285). -/
def Node.removeByRebuilding (drop : List PyStr) (preserveStructure preserveGranularity : Bool) (n : Node) : Except Err Node := do
  if n.cols.all fun c => decide (c ∉ drop) then
    n.checkKeys
    .ok n
  else do
    let remaining := n.cols.filter fun c => decide (c ∉ drop)
    let cats ← n.newCategories drop preserveStructure
    if remaining = [] ∨ ¬ remaining.all plainName then .error (.operationalError "syntax error")
    else do
      let n1 ← n.mergeRecords drop preserveGranularity
      let n2 ← { n1 with structs := [] }.copyColumns drop
      let n3 ← n2.updateCategories cats true
      n3.checkKeys
      .ok n3

end Toron.Legacy

/-
The rows of a link before and after it is made again.
-/
import Verif.Model.Legacy.RebuildLink
import Verif.Spec.LinkRoundtrip

namespace Toron.Legacy

open Toron.Selectors (PyStr)
open Toron.Space (IndexRec)

/-- The labels of a row, where nothing is an empty label. -/
def LinkRow.filled (x : LinkRow) : List PyStr := x.labels.map fun l => l.getD []

/-- The labels that a row has after the link was made again. -/
def Node.labelsAgain (n : Node) (x : LinkRow) : List (Option PyStr) := n.comesBack n.cols x.filled

/-- A row that can be placed: it fits one record; or at most 12 records, and the columns it uses are a category of the node. -/
def Node.Placeable (n : Node) (x : LinkRow) : Prop :=
  (n.fitting n.cols x.filled).length = 1 ∨
    (2 ≤ (n.fitting n.cols x.filled).length ∧ (n.fitting n.cols x.filled).length ≤ 12 ∧
      n.columnsUsed n.cols x.filled ∈ n.structs.map (·.bits))

/-- The total of the rows for a record of the other node. -/
def shownTotal (rows : List LinkRow) (j : Nat) : ℚ := ((rows.filter fun x => x.other = some j).map fun x => x.value.getD 0).sum

end Toron.Legacy

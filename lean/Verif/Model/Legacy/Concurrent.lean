/-
Two handles on the same legacy node (`src/toron/_dal.py`).
-/
import Verif.Model.Legacy.Remove

namespace Toron.Legacy

open Toron.Selectors (PyStr)
open Toron.Partitions

/-- `add_partition_definitions` (`_dal.py` lines 2506-2524) while others use the same file: the definitions and the
columns are read from `n` in one transaction (line 2509), the result is written to `now` in another one (lines
2523-2524), and in between other calls may have changed the file. -/
def Node.addPartitionDefinitionsAmong (defs : List (Finset PyStr)) (n now : Node) : Except Err Node :=
  now.updateCategories (findMinimalGeneratingSet [n.partDefs.getD [], defs, [n.cols.toFinset]]) false

end Toron.Legacy

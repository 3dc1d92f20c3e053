/-
Model of the two disaggregation methods with SQLite before 3.25 (`DataAccessLayerPre25` in `src/toron/_dal.py` lines
3409-3573), where correlated subqueries take the place of window functions. The methods themselves (lines 2012-2089,
2158-2254) are the same; only the statements for one level differ.
-/
import Verif.Model.Legacy.Disaggregate

namespace Toron.Legacy

open Toron.Selectors (PyStr CaseMap)
open Toron.Space (IndexRec)

/-- The rows of the subqueries that count records (`_dal.py` lines 3455-3461, 3541-3547): the records that fit, whether or not
they have a weight. -/
def Node.fittingRecords (n : Node) (bits : List Bool) (s : Source) : List IndexRec :=
  n.index.filter fun r => fitsMask bits s.labels r.labels

/-- The fraction of `_disaggregate_make_sql` (`_dal.py` lines 3445-3462). The sum (lines 3447-3453) is over the same rows as
that of the window function, since the weighting is that of the row. -/
def Node.oldStaticFraction (n : Node) (bits : List Bool) (s : Source) (rows : List (Nat × ℚ)) (x : Nat × ℚ) : ℚ :=
  if weightSum rows = 0 then 1 / (n.fittingRecords bits s).length else x.2 / weightSum rows

/-- The fraction of `_adaptive_disaggregate_make_sql` (`_dal.py` lines 3511-3548). The sum of what earlier levels have assigned
(lines 3513-3530) is over all records that fit. -/
def Node.oldAdaptiveFraction (n : Node) (bits : List Bool) (keys : List PyStr) (prev : List Piece) (s : Source)
    (rows : List (Nat × ℚ)) (x : Nat × ℚ) : ℚ :=
  let before := (n.fittingRecords bits s).filterMap fun r => earlier keys prev s.attrs r.id
  if before.sum = 0 then n.oldStaticFraction bits s rows x else (earlier keys prev s.attrs x.1).getD 0 / before.sum

/-- `static_disaggregate` (`_dal.py` lines 2012-2089) with the statement of lines 3409-3472. -/
def Node.oldStaticDisaggregate (cm : CaseMap) (labelsWhere attrsWhere : List (PyStr × PyStr)) (n : Node) :
    Except Err (List Piece) := do
  let srcs ← n.prepare cm attrsWhere
  .ok (n.grouped labelsWhere (n.structs.flatMap fun st => n.split (n.oldStaticFraction st.bits) st.bits srcs))

/-- `adaptive_disaggregate` (`_dal.py` lines 2158-2254) with the statement of lines 3474-3573. -/
def Node.oldAdaptiveDisaggregate (cm : CaseMap) (keys : List PyStr) (labelsWhere attrsWhere : List (PyStr × PyStr)) (n : Node) :
    Except Err (List Piece) := do
  let srcs ← n.prepare cm attrsWhere
  .ok (n.grouped labelsWhere
    (n.levels.foldl (fun prev bits => n.split (n.oldAdaptiveFraction bits keys prev) bits srcs ++ prev) []))

end Toron.Legacy

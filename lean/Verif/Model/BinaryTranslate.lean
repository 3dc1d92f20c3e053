/-
`refresh_proportions` and `NodeReader.translate` computed with 53 significant bits (see `Model/Binary`).

A link is given by the mappings of each record of the other dataspace: the record mapped to and the value. The choice of
the link by the attributes, and NULL quantities, are left out (see `Model/Reader`).
-/
import Verif.Model.Binary
import Verif.Model.Store.Read

namespace Toron.Binary
open Toron.Space (flatMapE)

/-- `sum(…)` of floats. Since Python 3.12 it also carries a correction, which is left out. -/
def plusAll (vs : List ℚ) : ℚ := vs.foldl (fun acc v => fl (acc + v)) 0

/-- The proportions of the mappings of one record (`refresh_proportions`, `data_models.py` lines 1241-1250). -/
def proportions (maps : List (Nat × ℚ)) : List (Nat × ℚ) :=
  let total := plusAll (maps.map (·.2))
  maps.map fun m => (m.1, if total = 0 then fl (1 / (maps.length : ℚ)) else fl (m.2 / total))

/-- One row of `quant_data` (`reader.py` lines 323-348). -/
def translateRow (maps : Nat → List (Nat × ℚ)) (quantize : Bool) (row : Nat × ℚ) : Except Err (List (Nat × ℚ)) :=
  if row.1 = 0 then .ok [row]
  else
    let items := (proportions (maps row.1)).map fun m => (m.1, fl (row.2 * m.2))
    if quantize then quantizeValues items row.2 else .ok items

/-- `translate` (`reader.py` lines 267-350) from one dataspace to the next, along a list of links. -/
def translateAlong (quantize : Bool) : List (Nat → List (Nat × ℚ)) → List (Nat × ℚ) → Except Err (List (Nat × ℚ))
  | [], rows => .ok rows
  | maps :: links, rows =>
    match flatMapE (translateRow maps quantize) rows with
    | .ok rows' => translateAlong quantize links rows'
    | .error e => .error e

end Toron.Binary

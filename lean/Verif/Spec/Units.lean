/-
Other units of measure: all weights, all mapping values and all amounts multiplied by fixed factors.
-/
import Verif.Model.Store.Ops
import Verif.Model.Store.Read
import Verif.Model.Reader

namespace Toron.Space

open Toron.Selectors (PyStr Sel CaseMap)

/-- How many new units make one old unit, for weights, mapping values and amounts. -/
structure Units where
  weight : ℚ
  mapping : ℚ
  amount : ℚ
  weight_pos : 0 < weight
  mapping_pos : 0 < mapping

/-- A stored weight in other units. -/
def Weight.inUnits (u : Units) (w : Weight) : Weight := { w with value := u.weight * w.value }

/-- A stored mapping in other units; proportions have no unit. -/
def Mapping.inUnits (u : Units) (m : Mapping) : Mapping := { m with value := u.mapping * m.value }

/-- A stored quantity in other units. -/
def Quant.inUnits (u : Units) (q : Quant) : Quant := { q with value := u.amount * q.value }

/-- A dataspace with everything in other units. -/
def Store.inUnits (u : Units) (s : Store) : Store :=
  { s with
    weights := s.weights.map (·.inUnits u), maps := s.maps.map (·.inUnits u), quants := s.quants.map (·.inUnits u) }

/-- A row of index data in other units. -/
def IndexRow.inUnits (u : Units) (r : IndexRow) : IndexRow := { r with ws := r.ws.map (Option.map (u.weight * ·)) }

/-- A row of weight data in other units. -/
def WeightRow.inUnits (u : Units) (r : WeightRow) : WeightRow := { r with value := r.value.map (u.weight * ·) }

/-- A row of mapping data in other units. -/
def MapRow.inUnits (u : Units) (r : MapRow) : MapRow := { r with value := u.mapping * r.value }

/-- A row of quantity data in other units. -/
def QuantRow.inUnits (u : Units) (r : QuantRow) : QuantRow := { r with value := u.amount * r.value }

/-- The same call with all numbers in other units. -/
def Op.inUnits (u : Units) : Op → Op
  | .insertIndex w wc pl pw rows => .insertIndex w wc pl pw (rows.map (·.inUnits u))
  | .insertWeights n p rows => .insertWeights n p (rows.map (·.inUnits u))
  | .updateWeights n rows => .updateWeights n (rows.map fun r => (r.1, r.2.1, u.weight * r.2.2))
  | .insertMappings2 r n rows => .insertMappings2 r n (rows.map (·.inUnits u))
  | .insertMappings r n c rows => .insertMappings r n c (rows.map (·.inUnits u))
  | .updateMappings r n c rows => .updateMappings r n c (rows.map (·.inUnits u))
  | .deleteMappings r n c (.rows rows) => .deleteMappings r n c (.rows (rows.map (·.inUnits u)))
  | .insertQuantities2 al ap p rows => .insertQuantities2 al ap p (rows.map (·.inUnits u))
  | .insertQuantities a rows => .insertQuantities a (rows.map (·.inUnits u))
  | op => op

/-- A result of reading with all amounts in other units. -/
def Reader.inUnits (u : Units) (r : Reader) : Reader :=
  { r with rows := r.rows.map fun x => { x with value := x.value.map (u.amount * ·) } }

/-- The successive outcomes of a history of calls. -/
def outcomes : List Op → Store → List (Except Err Unit)
  | [], _ => []
  | op :: ops, s => (step op s).2 :: outcomes ops (step op s).1

end Toron.Space

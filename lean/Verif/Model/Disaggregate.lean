/-
Model of `disaggregate_value` (`src/toron/data_service.py` lines 293-379).
-/
import Verif.Py
import Mathlib.Data.Rat.Defs
import Mathlib.Algebra.Order.Ring.Rat

namespace Toron

/-- First loop (`data_service.py` lines 321-328): sum of the weights of `ids`. A missing weight
raises `KeyError` unless the id is 0. `weight i` is the value of
`get_by_weight_group_id_and_index_id(weight_group_id, i)`, `none` where that raises `KeyError`. -/
def groupWeight (weight : Nat → Option ℚ) : List Nat → Except Err ℚ
  | [] => .ok 0
  | i :: is =>
    match weight i with
    | some w => (groupWeight weight is).map (w + ·)
    | none => if i ≠ 0 then .error (.keyError "weight") else groupWeight weight is

/-- `disaggregate_value` (`data_service.py` lines 293-379). `ids` is the collection `index_ids`.
(Float sums are exact here, so the order of summation is irrelevant.) -/
def disaggregateValue (value : ℚ) (ids : List Nat) (weight : Nat → Option ℚ) :
    Except Err (List (Nat × ℚ)) := do
  let gw ← groupWeight weight ids
  if gw ≠ 0 then
    .ok (ids.map fun i => match weight i with
      | some w => (i, value * (w / gw))
      | none => (i, 0))
  else if ids.length > 1 then
    if 0 ∉ ids then
      .ok (ids.map fun i => (i, value * (1 / (ids.length : ℚ))))
    else
      .ok (ids.map fun i => if i = 0 then (i, 0) else (i, value * (1 / ((ids.length : ℚ) - 1))))
  else match ids with
    | [i] => .ok [(i, value)]
    | _ => .error (.runtimeError "unexpected condition")

end Toron

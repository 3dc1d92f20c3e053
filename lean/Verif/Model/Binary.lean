/-
Arithmetic with 53 significant bits, and `disaggregate_value` and `quantize_values` computed with it.

Python's `float` is IEEE 754 binary64: the result of `+`, `-`, `*` and `/` is the exact result rounded to the nearest
number with 53 significant bits, ties to the even one. It is simplified that exponents have no limits: no overflow, no
subnormal numbers, no NaN, infinities or signed zeros.
-/
import Verif.Model.Quantize
import Verif.Model.Disaggregate
import Mathlib.Data.Int.Log

namespace Toron.Binary

/-- The nearest whole number, ties to the even one. -/
def roundEven (q : ℚ) : ℤ :=
  if q - ⌊q⌋ < 1 / 2 then ⌊q⌋
  else if 1 / 2 < q - ⌊q⌋ then ⌊q⌋ + 1
  else if ⌊q⌋ % 2 = 0 then ⌊q⌋ else ⌊q⌋ + 1

/-- The nearest number with 53 significant bits. -/
def fl (x : ℚ) : ℚ :=
  if x = 0 then 0
  else (roundEven (x / 2 ^ (Int.log 2 |x| - 52)) : ℚ) * 2 ^ (Int.log 2 |x| - 52)

/-- The first loop of `disaggregate_value` (`data_service.py` lines 321-328); `acc` is `group_weight`. -/
def groupWeight (weight : Nat → Option ℚ) : ℚ → List Nat → Except Err ℚ
  | acc, [] => .ok acc
  | acc, i :: is =>
    match weight i with
    | some w => groupWeight weight (fl (acc + w)) is
    | none => if i ≠ 0 then .error (.keyError "weight") else groupWeight weight acc is

/-- `disaggregate_value` (`data_service.py` lines 293-379). -/
def disaggregateValue (value : ℚ) (ids : List Nat) (weight : Nat → Option ℚ) : Except Err (List (Nat × ℚ)) := do
  let gw ← groupWeight weight 0 ids
  if gw ≠ 0 then
    .ok (ids.map fun i => match weight i with
      | some w => (i, fl (value * fl (w / gw)))
      | none => (i, 0))
  else if ids.length > 1 then
    if 0 ∉ ids then
      .ok (ids.map fun i => (i, fl (value * fl (1 / (ids.length : ℚ)))))
    else
      .ok (ids.map fun i => if i = 0 then (i, 0) else (i, fl (value * fl (1 / ((ids.length : ℚ) - 1)))))
  else match ids with
    | [i] => .ok [(i, value)]
    | _ => .error (.runtimeError "unexpected condition")

/-- `quantize_values` (`_utils.py` lines 607-640). `modf` is exact. -/
def quantizeValues (items : List (Nat × ℚ)) (total : ℚ) : Except Err (List (Nat × ℚ)) :=
  let ifw := items.map mkQItem
  let sumWhole : ℚ := ifw.foldl (fun acc x => fl (acc + (x.whole : ℚ))) 0
  let sorted := sortedBy qKeyLe ifw
  let remainder := fl (total - sumWhole)
  let n := (wholePart remainder).natAbs
  let first := (sorted.take n).map fun x => (x.id, fl ((x.whole : ℚ) + increment total))
  let rest := sorted.drop n
  if fracPart remainder ≠ 0 then
    match rest with
    | [] => .error (.runtimeError "generator raised StopIteration")
    | x :: xs => .ok (first ++ (x.id, fl ((x.whole : ℚ) + fracPart remainder)) ::
        xs.map fun x => (x.id, (x.whole : ℚ)))
  else .ok (first ++ rest.map fun x => (x.id, (x.whole : ℚ)))

/-- A value split and rounded to whole numbers, as `disaggregate` with `quantize=True` does
(`space.py` lines 2862-2878). -/
def splitWhole (value : ℚ) (ids : List Nat) (weight : Nat → Option ℚ) : Except Err (List (Nat × ℚ)) := do
  let parts ← disaggregateValue value ids weight
  quantizeValues parts value

end Toron.Binary

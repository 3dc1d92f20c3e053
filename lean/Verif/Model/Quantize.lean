/-
Model of `quantize_values` (`src/toron/_utils.py` lines 557-640) over exact rationals.
-/
import Verif.Model.Hashing
import Mathlib.Data.Rat.Floor

namespace Toron

/-- Whole part of `math.modf` (truncation toward zero). Floats are rationals here: no NaN,
infinities, signed zeros or rounding. -/
def wholePart (q : ℚ) : ℤ := if 0 ≤ q then ⌊q⌋ else ⌈q⌉

/-- Fractional part of `math.modf`; has the sign of the argument. -/
def fracPart (q : ℚ) : ℚ := q - wholePart q

/-- One entry of `idx_frac_whole` (`_utils.py` line 609). -/
structure QItem where
  id : Nat
  frac : ℚ
  whole : ℤ
  deriving DecidableEq, Repr

/-- `fractional_part, whole_part = modf(quantity_value)` (`_utils.py` lines 610-613). -/
def mkQItem (it : Nat × ℚ) : QItem := { id := it.1, frac := fracPart it.2, whole := wholePart it.2 }

/-- Comparison of sort keys `(-abs(frac), splitmix64(id))` (`_utils.py` line 618), `≤` on tuples. -/
def qKeyLe (a b : QItem) : Bool :=
  decide (|b.frac| < |a.frac|) ||
    (decide (|a.frac| = |b.frac|) && decide (splitmix64 a.id ≤ splitmix64 b.id))

/-- `copysign(1.0, sum_total)` (`_utils.py` line 629). (Python gives `-1.0` for `-0.0`, which has no
counterpart in ℚ.) -/
def increment (total : ℚ) : ℚ := if total < 0 then -1 else 1

/-- `quantize_values` (`_utils.py` lines 607-640). The generator's output is a list. `next()` on the
exhausted iterator (line 635) raises `StopIteration`, which Python turns into `RuntimeError`
inside a generator; items already yielded by then are not represented. -/
def quantizeValues (items : List (Nat × ℚ)) (total : ℚ) : Except Err (List (Nat × ℚ)) :=
  let ifw := items.map mkQItem
  let sumWhole : ℚ := (ifw.map fun x => (x.whole : ℚ)).sum
  let sorted := sortedBy qKeyLe ifw
  let remainder := total - sumWhole
  let n := (wholePart remainder).natAbs
  let first := (sorted.take n).map fun x => (x.id, (x.whole : ℚ) + increment total)
  let rest := sorted.drop n
  if fracPart remainder ≠ 0 then
    match rest with
    | [] => .error (.runtimeError "generator raised StopIteration")
    | x :: xs => .ok (first ++ (x.id, (x.whole : ℚ) + fracPart remainder) ::
        xs.map fun x => (x.id, (x.whole : ℚ)))
  else .ok (first ++ rest.map fun x => (x.id, (x.whole : ℚ)))

end Toron

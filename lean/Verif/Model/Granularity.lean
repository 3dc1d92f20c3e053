/-
Model of `calculate_granularity` (`src/toron/data_service.py` lines 713-781) and of its SQL version
(`src/toron/dal1/optimizations.py` lines 18-114).

The number computed is `log2 N - Σ (c/N) * log2 c`, with `N` the number of records (the undefined
record is left out) and `c` ranging over the sizes of the blocks of records that share their labels.
It is represented exactly by the pair `(N, Π c^c)`; the meaning as a real number is
`log2 N - (log2 Π c^c) / N` (`Spec/Granularity.lean`), and `Gran.le` compares two such numbers
without logarithms. The rounding of Python floats is not modelled.
-/
import Verif.Py

namespace Toron

/-- A granularity: `n` records, `k = Π c^c` over the block sizes `c`. -/
structure Gran where
  n : Nat
  k : Nat
  deriving DecidableEq, Repr

/-- Distinct elements in order of first appearance (`SELECT DISTINCT`,
`dal1/repositories.py` lines 130-140). -/
def distinct {α : Type _} [DecidableEq α] : List α → List α
  | [] => []
  | x :: xs => x :: (distinct xs).filter (fun y => y ≠ x)

/-- Block cardinalities as computed by the plain version (`data_service.py` lines 772-778): for each
distinct label combination count the records that match it. -/
def blockSizes {α : Type _} [DecidableEq α] (labels : List α) : List Nat :=
  (distinct labels).map fun l => (labels.filter (fun x => x = l)).length

/-- Insert one row into the groups made so far. -/
def groupInsert {α : Type _} [DecidableEq α] (x : α) : List (α × Nat) → List (α × Nat)
  | [] => [(x, 1)]
  | (y, n) :: rest => if x = y then (y, n + 1) :: rest else (y, n) :: groupInsert x rest

/-- Block cardinalities as computed by `SELECT COUNT(*) … GROUP BY` (`optimizations.py`
lines 96-100): one pass over the rows, a counter per group. -/
def groupByCounts {α : Type _} [DecidableEq α] (labels : List α) : List Nat :=
  (labels.foldl (fun acc x => groupInsert x acc) []).map (·.2)

/-- `calculate_granularity` (`data_service.py` lines 762-781). `columnsEmpty` is `not columns`;
`labels` are the labels of the records other than the undefined one, restricted to `columns`. -/
def calculateGranularity {α : Type _} [DecidableEq α] (columnsEmpty : Bool) (labels : List α) :
    Option Gran :=
  if columnsEmpty then none
  else if labels.length = 0 then none
  else some ⟨labels.length, ((blockSizes labels).map fun c => c ^ c).foldl (· * ·) 1⟩

/-- The SQL version (`optimizations.py` lines 75-107). -/
def calculateGranularitySql {α : Type _} [DecidableEq α] (columnsEmpty : Bool) (labels : List α) :
    Option Gran :=
  if columnsEmpty then none
  else if labels.length = 0 then none
  else some ⟨labels.length, ((groupByCounts labels).map fun c => c ^ c).foldl (· * ·) 1⟩

/-- Comparison of granularities as numbers:
`log2 n₁ - log2 k₁ / n₁ ≤ log2 n₂ - log2 k₂ / n₂`, cleared of logarithms and fractions. -/
def Gran.le (a b : Gran) : Bool :=
  decide (a.n ^ (a.n * b.n) * b.k ^ a.n ≤ b.n ^ (a.n * b.n) * a.k ^ b.n)

/-- `ORDER BY _granularity DESC` on values that may be NULL: NULL is smaller than every number. -/
def granGe : Option Gran → Option Gran → Bool
  | _, none => true
  | none, some _ => false
  | some a, some b => b.le a

/-- Python's `==` on granularities (floats or `None`). -/
def granEq : Option Gran → Option Gran → Bool
  | none, none => true
  | some a, some b => a.le b && b.le a
  | _, _ => false

end Toron

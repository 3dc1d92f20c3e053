/-
Specification helpers: totals of tables of (key, value) rows.
-/
import Mathlib.Data.Rat.Defs
import Mathlib.Algebra.Order.Ring.Rat

namespace Toron.Spec

/-- Total of the values of a table. -/
def total {κ : Type} (rows : List (κ × ℚ)) : ℚ := (rows.map (·.2)).sum

/-- Total of the values of the rows with key `k`. -/
def totalAt {κ : Type} [DecidableEq κ] (k : κ) (rows : List (κ × ℚ)) : ℚ :=
  ((rows.filter (fun r => r.1 = k)).map (·.2)).sum

end Toron.Spec

/-
The exact translation of a quantity, and what is required of links.
-/
import Mathlib.Algebra.Order.Field.Rat
import Mathlib.Algebra.BigOperators.Group.List.Basic

namespace Toron.Binary

/-- The exact parts of the quantity `v`: proportional to the values, or equal if these are all zero. -/
def exactParts (maps : List (Nat × ℚ)) (v : ℚ) : List (Nat × ℚ) :=
  maps.map fun m => (m.1, if (maps.map (·.2)).sum = 0 then v / maps.length else v * (m.2 / (maps.map (·.2)).sum))

/-- Every record but the undefined one has mappings, at most `n`, none with a negative value. -/
def GoodLink (n : ℕ) (maps : Nat → List (Nat × ℚ)) : Prop :=
  ∀ i, i ≠ 0 → maps i ≠ [] ∧ (maps i).length ≤ n ∧ ∀ m ∈ maps i, 0 ≤ m.2

/-- The rows as a number without signs. -/
def absTotal (rows : List (Nat × ℚ)) : ℚ := (rows.map fun r => |r.2|).sum

end Toron.Binary

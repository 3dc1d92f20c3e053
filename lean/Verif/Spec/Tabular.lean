/-
What reshaping a table should do.
-/
import Verif.Model.Tabular
import Mathlib.Algebra.BigOperators.Group.List.Basic

namespace Toron.Tabular

open Toron.Selectors (PyStr)

/-- A dictionary: no key twice. -/
def IsDict (r : DictRow) : Prop := (r.map (·.1)).Nodup

instance (r : DictRow) : Decidable (IsDict r) := inferInstanceAs (Decidable (List.Nodup _))

/-- Two dictionaries with the same items. -/
def SameDict (a b : DictRow) : Prop := ∀ k, a.lookup k = b.lookup k

/-- `o` is the long form of the cell in column `c` of the wide row `r`: the name of the column, the cell, and the
other columns unchanged. Neither of the two new columns overwrites an old one. -/
structure IsStacked (cols : List PyStr) (var val : PyStr) (r : DictRow) (c : PyStr) (o : DictRow) : Prop where
  name : o.lookup var = some (.text c)
  value : o.lookup val = r.lookup c
  present : (r.lookup c).isSome
  fresh : r.lookup var = none ∧ r.lookup val = none
  others : ∀ k, k ≠ var → k ≠ val → o.lookup k = if k ∈ cols then none else r.lookup k

/-- The number in a cell. -/
def Cell.number : Option Cell → ℚ
  | some (.num q) => q
  | _ => 0

/-- The sum of the numbers in column `k`. -/
def columnSum (rows : List DictRow) (k : PyStr) : ℚ := (rows.map fun r => Cell.number (r.lookup k)).sum

end Toron.Tabular

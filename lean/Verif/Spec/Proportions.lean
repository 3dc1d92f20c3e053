/-
Sums of weights, of mapping values and of proportions (some of which may be missing).
-/
import Verif.Model.Store.Tables
import Mathlib.Algebra.Order.Ring.Rat

namespace Toron.Space

/-- The sum of proportions; there is none if one of them is missing. -/
def propSum (ps : List (Option ℚ)) : Option ℚ :=
  if none ∈ ps then none else some (ps.filterMap id).sum

/-- The weights in a group, added up. -/
def Store.groupSum (s : Store) (g : Nat) : ℚ :=
  ((s.weights.filter fun w => w.group == g).map (·.value)).sum

/-- The mappings of a link from a source record. -/
def Store.mapsFrom (s : Store) (link : Nat) (other : Int) : List Mapping :=
  s.maps.filter fun m => decide (m.link = link ∧ m.other = other)

/-- The mappings of a link from a source record at a level. -/
def Store.mapsOf (s : Store) (link : Nat) (other : Int) (level : List Byte) : List Mapping :=
  s.maps.filter fun m => decide (m.link = link ∧ m.other = other ∧ m.level = level)

/-- Their values, added up. -/
def Store.valueSum (s : Store) (link : Nat) (other : Int) (level : List Byte) : ℚ :=
  ((s.mapsOf link other level).map (·.value)).sum

/-- Their proportions, added up. -/
def Store.propSum (s : Store) (link : Nat) (other : Int) (level : List Byte) : Option ℚ :=
  Space.propSum ((s.mapsOf link other level).map (·.prop))

end Toron.Space

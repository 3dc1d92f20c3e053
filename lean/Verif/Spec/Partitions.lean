/-
Specification for partitions: what it means that a set of labels is generated by a collection.
-/
import Mathlib.Data.Finset.Card

namespace Toron.Spec

variable {α : Type} [DecidableEq α]

/-- `s` is the union of some (possibly empty) sub-collection `T` of `defs`. -/
def IsUnionOf (defs : Finset α → Prop) (s : Finset α) : Prop :=
  ∃ T : Finset (Finset α), (∀ t ∈ T, defs t) ∧ ∀ x, x ∈ s ↔ ∃ t ∈ T, x ∈ t

/-- `G` and `H` generate the same family of label sets. -/
def SameFamily (G H : Finset α → Prop) : Prop := ∀ s, IsUnionOf G s ↔ IsUnionOf H s

end Toron.Spec

/-
Notions used to compare disaggregation with old and new versions of SQLite.
-/
import Verif.Spec.LegacySplit

namespace Toron.Legacy

open Toron.Selectors (PyStr)

/-- Weights are enough to divide a quantity with the given labels: those in its place do not add up to zero, or every record
in its place, the undefined one included, has a weight. -/
def Node.Divisible (n : Node) (g : Nat) (labels : List PyStr) : Prop :=
  ((n.takers g labels).map (·.2)).sum ≠ 0 ∨
    ∀ r ∈ n.indexRecords, IndexRec.inPlace labels r → ∃ w ∈ n.weights, w.group = g ∧ w.index = r.id

instance (n : Node) (g : Nat) (labels : List PyStr) : Decidable (n.Divisible g labels) := by
  unfold Node.Divisible; infer_instance

end Toron.Legacy

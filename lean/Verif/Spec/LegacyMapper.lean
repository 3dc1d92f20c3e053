/-
Notions used to state how the legacy mapper makes links.
-/
import Verif.Model.Legacy.Mapper
import Verif.Spec.LegacyEdges

namespace Toron.Legacy

open Toron.Selectors (PyStr)
open Toron.Space (IndexRec)

/-- The records that labels of a table refer to: those that have each of the labels that are not empty. -/
def Node.fitting (n : Node) (header labels : List PyStr) : List IndexRec :=
  n.index.filter fun r => decide (∀ cl ∈ header.zip labels, cl.2 ≠ [] → cl ∈ n.cols.zip r.labels)

/-- The columns of the node that labels of a table refer to, as a list of flags. -/
def Node.columnsUsed (n : Node) (header labels : List PyStr) : List Bool :=
  n.cols.map fun c => decide (∃ cl ∈ header.zip labels, cl.2 ≠ [] ∧ cl.1 = c)

/-- The records a row of the table was matched with, each with its part. -/
def partsOf (found : List Found) (run : Nat) : List (Nat × ℚ) :=
  (found.filter fun m => decide (m.run = run)).map fun m => (m.index, proportionIn found m)

/-- The part of a row that belongs to a record. -/
def partOf (found : List Found) (run index : Nat) : ℚ :=
  (((partsOf found run).filter fun p => decide (p.1 = index)).map (·.2)).sum

/-- The weight of a record in a weighting, 0 if it has none. -/
def Node.weightIn (n : Node) (weighting index : Nat) : ℚ :=
  ((n.weights.filter fun w => decide (w.group = weighting ∧ w.index = index)).map (·.value)).sum

/-- The total of the relations between two records. -/
def relationTotal (rels : List (Nat × Nat × ℚ)) (source index : Nat) : ℚ :=
  ((rels.filter fun g => decide (g.1 = source ∧ g.2.1 = index)).map (·.2.2)).sum

end Toron.Legacy

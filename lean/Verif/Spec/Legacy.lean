/-
Notions used to state what the legacy node class does, in terms of what can be read from a node.
-/
import Verif.Model.Legacy.Remove
import Verif.Spec.Partitions

namespace Toron.Legacy

open Toron.Selectors (PyStr)
open Toron.Space (IndexRec Attrs keepCols)

/-- A node that some sequence of calls makes out of a new one. -/
def Reachable (n : Node) : Prop := ∃ ops, n = Node.new.run ops

/-- The weights, each with the labels of its record and the name of its weighting. -/
def Node.weightListing (n : Node) : List (List PyStr × PyStr × ℚ) :=
  n.weights.filterMap fun w =>
    match n.index.find? fun r => r.id == w.index, n.weightings.find? fun g => g.id == w.group with
    | some r, some g => some (r.labels, g.name, w.value)
    | _, _ => none

/-- The total of the listed amounts whose labels have a property and that belong to a given thing. -/
def total {κ : Type} [DecidableEq κ] (rows : List (List PyStr × κ × ℚ)) (P : List PyStr → Prop) [DecidablePred P] (k : κ) :
    ℚ :=
  ((rows.filter fun x => decide (P x.1 ∧ x.2.1 = k)).map (·.2.2)).sum

/-- The labels that remain when columns are removed. -/
def Node.remaining (n : Node) (drop : List PyStr) (labels : List PyStr) : List PyStr := keepCols n.cols drop labels

/-- The records that stay: of the records that cannot be told apart any more, the one with the smallest id. -/
def Node.survivors (n : Node) (drop : List PyStr) : List IndexRec :=
  n.indexRecords.filter fun r => decide (∀ x ∈ n.indexRecords,
    n.remaining drop x.labels = n.remaining drop r.labels → r.id ≤ x.id)

/-- The cells of a row in the columns of the node. -/
def Node.cells (n : Node) (header : List PyStr) (labels : List PyStr) : List (PyStr × PyStr) :=
  (header.zip labels).filter fun cl => decide (cl.1 ∈ n.indexColumns)

/-- The records, other than the undefined one, that have the given labels and, if one is given, the given id. -/
def Node.recordsLike (n : Node) (cells : List (PyStr × PyStr)) (id : Option Nat) : List IndexRec :=
  n.indexRecords.filter fun r => decide (r.id ≠ 0 ∧ (∀ cl ∈ cells, cl ∈ n.indexColumns.zip r.labels) ∧ ∀ i, id = some i → r.id = i)

/-- The weights of a table: those of the rows that match exactly one record, with the id of the record. -/
def Node.weightsOf (n : Node) (header : List PyStr) (rows : List WeightRow) : List (Nat × ℚ) :=
  rows.filterMap fun row =>
    match row.value, n.recordsLike (n.cells header row.labels) row.id with
    | some v, [r] => some (r.id, v)
    | _, _ => none

/-- Whether every record, other than the undefined one, has a weight in a weighting. -/
def Node.covers (n : Node) (weighting : Nat) : Prop :=
  ∀ r ∈ n.indexRecords, r.id ≠ 0 → ∃ w ∈ n.weights, w.group = weighting ∧ w.index = r.id

/-- The calls that keep the structure tidy: columns are named in normal form and not renamed, and definitions are made of
the columns there are. -/
def TidyOp (n : Node) : Op → Prop
  | .addIndexColumns names => ∀ c ∈ names, normName c = .ok c
  | .renameIndexColumns _ => False
  | .addPartitionDefinitions defs => ∀ d ∈ defs, d ⊆ n.indexColumns.toFinset
  | _ => True

/-- A node made by such calls. -/
inductive ReachableTidily : Node → Prop
  | new : ReachableTidily Node.new
  | step {n : Node} {op : Op} : ReachableTidily n → TidyOp n op → ReachableTidily (n.step op)

end Toron.Legacy

/-
Reading groups of records in turn.
-/
import Verif.Model.Legacy.Groups
import Verif.Spec.Legacy

namespace Toron.Legacy

open Toron.Selectors (PyStr)
open Toron.Space (IndexRec)

/-- A record meets conditions: it has the id, and the labels in the columns. -/
def Node.Has (n : Node) (w : Where) (r : IndexRec) : Prop :=
  (∀ i, w.id = some i → r.id = i) ∧ ∀ cl ∈ w.cells, cl ∈ n.cols.zip r.labels

/-- The answer is not a group: it belongs to the reading of a group. -/
def Answer.ofGroup : Answer → Bool
  | .group _ => false
  | _ => true

/-- What `k` calls of `next` for an iterator over these records give. -/
def iterated (records : List IndexRec) (k : Nat) : List Answer :=
  (records.map Answer.row).take k ++ List.replicate (k - records.length) Answer.stop

end Toron.Legacy

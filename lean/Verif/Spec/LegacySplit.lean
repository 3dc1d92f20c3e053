/-
Notions used to state what disaggregation on the legacy class does.
-/
import Verif.Model.Legacy.Disaggregate
import Verif.Spec.Legacy

namespace Toron.Legacy

open Toron.Selectors (PyStr Sel CaseMap Row)
open Toron.Space (IndexRec Attrs)

/-- The quantities with all the given attributes: labels, attributes, amount. -/
def Node.wanted (n : Node) (attrsWhere : List (PyStr × PyStr)) : List (List PyStr × Attrs × ℚ) :=
  n.rawQuantities.filter fun q => decide (∀ kv ∈ attrsWhere, Row.get q.2.1 kv.1 = kv.2)

/-- The record is in the place with the given labels: it has all those that are not empty. -/
def IndexRec.inPlace (labels : List PyStr) (r : IndexRec) : Prop := ∀ p ∈ labels.zip r.labels, p.1 = [] ∨ p.1 = p.2

instance (labels : List PyStr) (r : IndexRec) : Decidable (IndexRec.inPlace labels r) := by
  unfold IndexRec.inPlace; infer_instance

/-- The columns for which labels are given form a level of the node. -/
def Node.levelOk (n : Node) (labels : List PyStr) : Prop := (labels.map fun l => decide (l ≠ [])) ∈ n.structure_

/-- The weighting used for quantities with the given attributes: that of the complete weightings whose selector matches with
the greatest unique specificity, else number 1. -/
def Node.weightingFor (cm : CaseMap) (n : Node) (a : Attrs) : Except Err Nat := do
  let sels ← n.selectorLists
  Selectors.getMatchingKey cm sels 1 a

/-- The records in the place, with the weights they have in the weighting. -/
def Node.takers (n : Node) (g : Nat) (labels : List PyStr) : List (Nat × ℚ) :=
  n.indexRecords.flatMap fun r =>
    if IndexRec.inPlace labels r then (n.weights.filter fun w => decide (w.group = g ∧ w.index = r.id)).map fun w => (r.id, w.value)
    else []

/-- The quantity is assigned to records: its labels form a level, and there is a record with a weight. -/
def Node.Placed (cm : CaseMap) (n : Node) (q : List PyStr × Attrs × ℚ) : Prop :=
  n.levelOk q.1 ∧ ∃ g, n.weightingFor cm q.2.1 = .ok g ∧ n.takers g q.1 ≠ []

instance (n : Node) (labels : List PyStr) : Decidable (n.levelOk labels) := by
  unfold Node.levelOk; infer_instance

instance (cm : CaseMap) (n : Node) (q : List PyStr × Attrs × ℚ) : Decidable (n.Placed cm q) :=
  match h : n.weightingFor cm q.2.1 with
  | .ok g => decidable_of_iff (n.levelOk q.1 ∧ n.takers g q.1 ≠ []) (by
      unfold Node.Placed
      rw [h]
      exact ⟨fun x => ⟨x.1, g, rfl, x.2⟩, fun ⟨a, g', e, b⟩ => by cases e; exact ⟨a, b⟩⟩)
  | .error e => isFalse fun ⟨_, g', e', _⟩ => by
      rw [h] at e'
      cases e'

/-- The record with this id has the given labels. -/
def Node.recordHas (n : Node) (labelsWhere : List (PyStr × PyStr)) (i : Nat) : Prop :=
  ∃ r ∈ n.indexRecords, r.id = i ∧ ∀ cl ∈ labelsWhere, (n.indexColumns.zip r.labels).lookup cl.1 = some cl.2

/-- The amount in a result for a record and attributes. -/
def amountOf (out : List Piece) (i : Nat) (a : Attrs) : ℚ :=
  ((out.filter fun p => decide (p.index = i ∧ p.attrs = a)).map (·.value)).sum

/-- The total of a result for attributes. -/
def totalOf (out : List Piece) (a : Attrs) : ℚ := ((out.filter fun p => decide (p.attrs = a)).map (·.value)).sum

/-- The part for one of several, in proportion to the weights, or the same for all if these add up to zero. -/
def partBy (weights : List ℚ) (w : ℚ) : ℚ := if weights.sum = 0 then 1 / weights.length else w / weights.sum

/-- The first labels form a level that comes before that of the second ones, the finest levels being the first. -/
def Node.finer (n : Node) (labels' labels : List PyStr) : Prop :=
  n.levels.idxOf (labels'.map fun l => decide (l ≠ [])) < n.levels.idxOf (labels.map fun l => decide (l ≠ []))

instance (n : Node) (labels' labels : List PyStr) : Decidable (n.finer labels' labels) := by
  unfold Node.finer; infer_instance

/-- Attributes agree if they are the same for the given keys, of which they have at least one. Without keys, they have to be
the same. -/
def agree (keys : List PyStr) (a' a : Attrs) : Prop :=
  if keys = [] then a' = a
  else (a'.filter fun kv => decide (kv.1 ∈ keys)) = (a.filter fun kv => decide (kv.1 ∈ keys)) ∧
    (a.filter fun kv => decide (kv.1 ∈ keys)) ≠ []

instance (keys : List PyStr) (a' a : Attrs) : Decidable (agree keys a' a) := by
  unfold agree; infer_instance

/-- What a record gets of quantities for finer levels whose attributes agree with those of `q`. -/
def Node.finerShare (n : Node) (keys : List PyStr) (qs : List ((List PyStr × Attrs × ℚ) × (Nat → ℚ)))
    (q : List PyStr × Attrs × ℚ) (i : Nat) : ℚ :=
  ((qs.filter fun y => decide (n.finer y.1.1 q.1 ∧ agree keys y.1.2.1 q.2.1)).map fun y => y.2 i).sum

/-- `f` says how much of a quantity each record gets: all of it is divided among records in its place, or, if it is not
assigned, nothing. -/
def Node.Divides (cm : CaseMap) (n : Node) (q : List PyStr × Attrs × ℚ) (f : Nat → ℚ) : Prop :=
  (n.Placed cm q → (n.indexRecords.map fun r => f r.id).sum = q.2.2) ∧ (¬ n.Placed cm q → ∀ i, f i = 0) ∧
  ∀ r ∈ n.indexRecords, f r.id ≠ 0 → IndexRec.inPlace q.1 r

/-- A result lists each record at most once for the same attributes, and its amounts are the sums of what the records get of
the quantities with these attributes. -/
def Explains (out : List Piece) (n : Node) (qs : List ((List PyStr × Attrs × ℚ) × (Nat → ℚ))) : Prop :=
  (out.map fun p => (p.index, p.attrs)).Nodup ∧ (∀ p ∈ out, ∃ r ∈ n.indexRecords, r.id = p.index) ∧
  ∀ r ∈ n.indexRecords, ∀ a,
    amountOf out r.id a = ((qs.filter fun q => decide (q.1.2.1 = a)).map fun q => q.2 r.id).sum

end Toron.Legacy

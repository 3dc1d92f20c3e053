/-
The granularity of a valid combination for the current index records.
-/
import Verif.Spec.Columns
import Verif.Spec.Granularity
import Verif.Model.Granularity

namespace Toron.Space

open Toron.Selectors (PyStr)

/-- The labels of the records other than the undefined one, in the columns `d`. -/
def Store.labelsIn (s : Store) (d : Finset PyStr) : List (List PyStr) :=
  (s.index.filter fun r => r.id != 0).map fun r =>
    ((s.cols.zip r.labels).filter fun cl => cl.1 ∈ d).map (·.2)

/-- The granularity the combination `d` should have: none for the empty set or if there are no records. -/
noncomputable def Store.trueGranularity (s : Store) (d : Finset PyStr) : Option ℝ :=
  if d = ∅ ∨ s.labelsIn d = [] then none else some (Spec.granularity (s.labelsIn d))

/-- The call may replace labels of existing records while inserting. -/
def Op.replacesLabels : Op → Bool
  | .insertIndex _ _ pl _ _ => pl == .replace
  | _ => false

/-- Histories without dropped columns and without replacing labels while inserting. -/
def ReachableFresh (s : Store) : Prop :=
  ∃ uid ops, (∀ op ∈ ops, op.dropsColumns = false ∧ op.replacesLabels = false) ∧ s = run ops (Store.new uid)

end Toron.Space

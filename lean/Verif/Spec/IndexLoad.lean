/-
What loading rows of index data should do.
-/
import Verif.Spec.Policies

namespace Toron.Space

open Toron.Selectors (PyStr)

/-- A row counts unless one of its labels is empty. -/
def IndexRow.Counts (row : IndexRow) : Prop := [] ∉ row.labels.getD []

instance (row : IndexRow) : Decidable row.Counts := inferInstanceAs (Decidable (_ ∉ _))

/-- The labels that the rows give to the record `i`. -/
def labelsGiven (rows : List IndexRow) (i : Nat) : List (List PyStr) :=
  (rows.filter fun row => decide (row.Counts ∧ row.idv = some i)).filterMap (·.labels)

/-- The labels of a record after loading: under `replace` the last ones given, otherwise the old ones. -/
def labelsAfter (p : Policy) (old : List PyStr) (new : List (List PyStr)) : List PyStr :=
  if p = .replace then new.getLast?.getD old else old

/-- The columns of the rows that are loaded as weights: those named in `weights` (all if it is not given). -/
def weightColumns (weights : Option (List PyStr)) (wcols : List PyStr) : List PyStr :=
  match weights with
  | none => wcols
  | some names => wcols.filter fun n => n ∈ names

/-- The numbers of a row in the columns named `n`. -/
def IndexRow.numbers (columns : List PyStr) (n : PyStr) (row : IndexRow) : List ℚ :=
  ((columns.zip row.ws).filter fun x => decide (x.1 = n)).filterMap (·.2)

/-- The row is about the record `i`: it names the record, or it names none and has the record's labels. -/
def Store.About (s : Store) (row : IndexRow) (i : Nat) : Prop :=
  row.idv = some i ∨ row.idv = none ∧ (⟨i, row.labels.getD []⟩ : IndexRec) ∈ s.index

instance (s : Store) (row : IndexRow) (i : Nat) : Decidable (s.About row i) := inferInstanceAs (Decidable (_ ∨ _))

/-- The weights that the rows give to the record `i` in the group named `n`. -/
def Store.weightsGiven (s : Store) (columns : List PyStr) (n : PyStr) (rows : List IndexRow) (i : Nat) : List ℚ :=
  (rows.filter fun row => decide (row.Counts ∧ s.About row i)).flatMap (IndexRow.numbers columns n)

/-- The label combinations of the rows without id that no record has, each once, in the order of the rows. -/
def Store.newLabels (s : Store) (rows : List IndexRow) : List (List PyStr) :=
  distinct ((rows.filter fun row => decide (row.Counts ∧ row.idv = none ∧ row.labels.getD [] ∉ s.index.map (·.labels))).map
    fun row => row.labels.getD [])

end Toron.Space

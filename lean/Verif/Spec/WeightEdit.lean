/-
What editing the weights of a group should do.
-/
import Verif.Spec.Policies
import Verif.Spec.Select

namespace Toron.Space

open Toron.Selectors (PyStr)

/-- The values that rows of corrections (id, labels, value) give for the index record `i`: only rows that have both the
id and the labels of the record count. -/
def Store.updatesFor (s : Store) (rows : List (Nat × List PyStr × ℚ)) (i : Nat) : List ℚ :=
  (rows.filter fun row => decide (row.1 = i ∧ (⟨i, row.2.1⟩ : IndexRec) ∈ s.index)).map (·.2.2)

/-- The last of the new values, or the old value if there is no new one. -/
def lastOr (old : Option ℚ) (new : List ℚ) : Option ℚ := new.getLast?.or old

/-- The record `i` is meant: a row has its id and its labels, or it has the labels of the criteria. -/
def Store.Chosen (s : Store) (t : Target (Nat × List PyStr)) (i : Nat) : Prop :=
  match t with
  | .rows rs => ∃ labels, (i, labels) ∈ rs ∧ (⟨i, labels⟩ : IndexRec) ∈ s.index
  | .criteria cs => ∃ r ∈ s.index, r.id = i ∧ Fits s.cols cs r.labels

/-- Something is given, and criteria name label columns. -/
def Store.Usable (s : Store) (t : Target (Nat × List PyStr)) : Prop :=
  match t with
  | .rows rs => rs ≠ []
  | .criteria cs => cs ≠ [] ∧ ∀ c v, (c, v) ∈ cs → c ∈ s.cols

/-- The group of that name covers every record but the undefined one. -/
def Store.Covers (s : Store) (name : PyStr) : Prop := ∀ r ∈ s.index, r.id ≠ 0 → ∃ x, s.HasWeight name r.id x

end Toron.Space

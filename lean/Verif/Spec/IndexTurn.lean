/-
Loading rows of index data, one after the other: which record a row is about at its turn.
-/
import Verif.Spec.IndexLoad

namespace Toron.Space

open Toron.Selectors (PyStr)

/-- The records and the last id given to one, after one more row: a row with an id gives its labels, if it has any, to the
record with the id under `replace`; a row without id adds a record if none has its labels. -/
def recordsNext (p : Policy) (t : List IndexRec × Nat) (row : IndexRow) : List IndexRec × Nat :=
  if row.Counts then
    match row.idv with
    | some i => (t.1.map fun r => if r.id = i ∧ p = .replace then ⟨r.id, row.labels.getD r.labels⟩ else r, t.2)
    | none =>
      if row.labels.getD [] ∈ t.1.map (·.labels) then t
      else (t.1 ++ [⟨t.2 + 1, row.labels.getD []⟩], t.2 + 1)
  else t

/-- A row is about the record `i` if it has the id `i`, or no id and the labels that the record has at this turn. -/
def IndexRow.aboutNow (row : IndexRow) (records : List IndexRec) (i : Nat) : Prop :=
  row.Counts ∧ (row.idv = some i ∨ row.idv = none ∧ (⟨i, row.labels.getD []⟩ : IndexRec) ∈ records)

instance (row : IndexRow) (records : List IndexRec) (i : Nat) : Decidable (row.aboutNow records i) :=
  inferInstanceAs (Decidable (_ ∧ _))

/-- The numbers that the rows have for the record `i`, in the column `n`. -/
def numbersInTurn (p : Policy) (columns : List PyStr) (n : PyStr) (i : Nat) :
    List IndexRec × Nat → List IndexRow → List ℚ
  | _, [] => []
  | t, row :: rows =>
    (if row.aboutNow (recordsNext p t row).1 i then row.numbers columns n else []) ++
      numbersInTurn p columns n i (recordsNext p t row) rows

end Toron.Space

/-
Labels by column, for saying what dropping columns should do.
-/
import Verif.Spec.Columns

namespace Toron.Space

open Toron.Selectors (PyStr)

/-- The label in the column `c`. -/
def labelIn (cols labels : List PyStr) (c : PyStr) : Option PyStr := (cols.zip labels).lookup c

/-- Without the columns `names`, two combinations of labels can still be told apart. -/
def Store.Apart (s : Store) (names a b : List PyStr) : Prop :=
  ∃ c ∈ s.cols, c ∉ names ∧ labelIn s.cols a c ≠ labelIn s.cols b c

/-- What must hold for columns to be dropped: none of the names is reserved, a column remains, and all records, all
locations with quantities and all valid combinations of columns can still be told apart. -/
def Store.Droppable (s : Store) (names : List PyStr) : Prop :=
  (∀ c ∈ names, c ∉ reservedNames) ∧ (∃ c ∈ s.cols, c ∉ names) ∧
  (∀ r ∈ s.index, ∀ r' ∈ s.index, r ≠ r' → s.Apart names r.labels r'.labels) ∧
  (∀ l ∈ s.locs, ∀ l' ∈ s.locs, l ≠ l' → s.Apart names l.labels l'.labels) ∧
  (∀ d d', s.Valid d → s.Valid d' → d ≠ d' → ∃ c ∈ s.cols, c ∉ names ∧ ¬ (c ∈ d ↔ c ∈ d'))

end Toron.Space

/-
What the rows of a listed mapping should show.
-/
import Verif.Model.GraphListing
import Verif.Spec.Graph

namespace Toron.Space

open Toron.Selectors (PyStr)

/-- The fields show the id `i`, the domain if there is one, and the labels of the record with this id; if there is no
such record (any more), nothing in place of each label. -/
def ShowsId (s : Store) (i : Int) (cells : List MapCell) : Prop :=
  ∃ d labels : List MapCell, cells = .id i :: d ++ labels ∧
    (d = [] ∧ (s.domain = none ∨ s.domain = some []) ∨ ∃ t, t ≠ [] ∧ s.domain = some t ∧ d = [.text t]) ∧
    ((∃ r ∈ s.index, (r.id : Int) = i ∧ labels = r.labels.map .text) ∨
      (∀ r ∈ s.index, (r.id : Int) ≠ i) ∧ labels.length = s.cols.length ∧ ∀ c ∈ labels, c = .none)

/-- The fields show nothing: one field for the id, one for the domain if there is one, one for each label. -/
def ShowsNothing (s : Store) (cells : List MapCell) : Prop :=
  (∀ c ∈ cells, c = .none) ∧
    cells.length = 1 + (if s.domain = none ∨ s.domain = some [] then 0 else 1) + s.cols.length

/-- A row: a side for the source, the value, a side for the target, the ambiguous fields. -/
def RowOf (left right : List MapCell → Prop) (value ambiguous : MapCell) (row : List MapCell) : Prop :=
  ∃ a b, left a ∧ right b ∧ row = a ++ [value] ++ b ++ [ambiguous]

end Toron.Space

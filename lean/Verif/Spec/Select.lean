/-
What the listings of index records, weights and mappings should show.
-/
import Verif.Model.Store.Select

namespace Toron.Space

open Toron.Selectors (PyStr)

/-- The record has the wanted label in every column of the criteria. -/
def Fits (cols : List PyStr) (criteria : List (PyStr × PyStr)) (labels : List PyStr) : Prop :=
  ∀ c v, (c, v) ∈ criteria → (c, v) ∈ cols.zip labels

end Toron.Space

/-
What the listings of a dataspace should show.
-/
import Verif.Model.Store.Select
import Verif.Spec.Read

namespace Toron.Space

open Toron.Selectors (PyStr)

/-- The location of the quantity matches no index record (`withUndefined`: the undefined record 0 counts as one). -/
def Store.NoRecord (s : Store) (withUndefined : Bool) (q : Quant) : Prop :=
  ∃ l ∈ s.locs, l.id = q.loc ∧
    ¬ ∃ r ∈ s.index, (withUndefined = true ∨ r.id ≠ 0) ∧ labelsMatch l.labels r.labels

/-- The location of the quantity matches no index record, or its labels are not those of a valid combination. -/
def Store.Unmatched (s : Store) (withUndefined : Bool) (q : Quant) : Prop :=
  s.NoRecord withUndefined q ∨ ((∃ l ∈ s.locs, l.id = q.loc) ∧ ¬ s.Counted q)

/-- The row shows the quantity: its labels and value, the domain if there is one, and its attributes in the columns
`names`. -/
structure Store.Shows (s : Store) (names : List PyStr) (q : Quant) (v : QuantView) : Prop where
  labels : ∃ l ∈ s.locs, l.id = q.loc ∧ v.labels = l.labels
  attrs : ∃ g ∈ s.agroups, g.id = q.ag ∧ v.attrs = names.map fun n => g.attrs.lookup n
  value : v.value = q.value
  domain : v.domain = if s.domain.getD [] = [] then [] else [s.domain.getD []]

/-- `s'` is `s` without the quantities `P`: other quantities stay as they are, locations and attribute sets are only
removed if no quantity uses them, and nothing else changes. -/
structure Store.Without (s : Store) (P : Quant → Prop) (s' : Store) : Prop where
  gone : ∀ q ∈ s'.quants, ¬ P q
  kept : ∀ q ∈ s.quants, ¬ P q → q ∈ s'.quants
  sub : s'.quants.Sublist s.quants
  locs : s'.locs.Sublist s.locs
  locsKept : ∀ l ∈ s.locs, (∃ q ∈ s'.quants, q.loc = l.id) → l ∈ s'.locs
  agroups : s'.agroups.Sublist s.agroups
  agroupsKept : ∀ g ∈ s.agroups, (∃ q ∈ s'.quants, q.ag = g.id) → g ∈ s'.agroups
  rest : s' = { s with quants := s'.quants, locs := s'.locs, agroups := s'.agroups }

end Toron.Space

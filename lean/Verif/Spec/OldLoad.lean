/-
What the older method for loading quantities should do.
-/
import Verif.Spec.Policies

namespace Toron.Space

open Toron.Selectors (PyStr)

/-- The rows that are loaded: all if the dataspace has no domain, otherwise those of its domain. -/
def Store.InDomain (s : Store) (row : QuantRow) : Prop := s.getDomain = [] ∨ row.domain = some s.getDomain

instance (s : Store) (row : QuantRow) : Decidable (s.InDomain row) := by unfold Store.InDomain; infer_instance

/-- The columns that count as attributes: those named, without `domain` if the dataspace has a domain. -/
def Store.attrColumns (s : Store) (attributes : List PyStr) : List PyStr :=
  if s.getDomain = [] then attributes else attributes.filter fun a => a ≠ ['d', 'o', 'm', 'a', 'i', 'n']

/-- The attribute set of a row: the named attributes with a non-empty cell, in key order. -/
def Store.namedAttrs (s : Store) (attributes : List PyStr) (row : QuantRow) : Attrs :=
  canonAttrs (row.pick (s.attrColumns attributes))

/-- The values that the rows give for the labels and the attribute set. -/
def Store.plainFor (s : Store) (attributes : List PyStr) (rows : List QuantRow) (labels : List PyStr) (attrs : Attrs) :
    List ℚ :=
  (rows.filter fun row => decide (s.InDomain row ∧ row.labels = labels ∧ s.namedAttrs attributes row = attrs ∧
    attrs ≠ [])).map (·.value)

end Toron.Space

/-
What is needed so that a table with quantities shows everything.
-/
import Verif.Model.QuantCsv
import Verif.Spec.Policies

namespace Toron.QuantCsv

open Toron.Selectors (PyStr)
open Toron.Space

/-- No label column and no attribute is named like the column with the values. -/
def PlainNames (s : Store) : Prop := quantityName ∉ s.cols ∧ quantityName ∉ s.regAttrs.getD []

/-- Every attribute in use is registered. -/
def AllRegistered (s : Store) : Prop := ∀ g ∈ s.agroups, ∀ kv ∈ g.attrs, kv.1 ∈ s.regAttrs.getD []

/-- Both have the same label columns in the same order and the same registered attributes, and the same domain unless
the first has none. -/
structure SameLayout (s s' : Store) : Prop where
  cols : s'.cols = s.cols
  attrs : ∀ a, a ∈ s'.regAttrs.getD [] ↔ a ∈ s.regAttrs.getD []
  domain : s.getDomain = [] ∨ s'.getDomain = s.getDomain

/-- The labels may be loaded: they are those of a valid combination and match a record, as far as this is required. -/
def Fits (s : Store) (allowLabel allowPartition : Bool) (labels : List PyStr) : Prop :=
  (allowPartition = true ∨ ∃ st ∈ s.structs, st.bits = labels.map fun x => !x.isEmpty) ∧
  (allowLabel = true ∨ ∃ r ∈ s.index, labelsMatch labels r.labels)

end Toron.QuantCsv

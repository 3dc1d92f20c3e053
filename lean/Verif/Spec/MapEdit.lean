/-
Which mappings the criteria given to an operation mean.
-/
import Verif.Spec.Select
import Verif.Spec.Bits

namespace Toron.Space

open Toron.Selectors (PyStr)
open Toron.Spec

/-- The level of a mapping uses only columns for which the criteria give a label. -/
def UsesOnly (cols : List PyStr) (cs : List (PyStr × PyStr)) (level : List Byte) : Prop :=
  ∀ i, bitAt (bytesToBitstream level) i = true → ∃ c v, cols[i]? = some c ∧ (c, v) ∈ cs

/-- The criteria mean the mapping: it is one of the link's, its record has the wanted labels, and its level does not
use other columns. -/
def Means (s : Store) (link : Nat) (cs : List (PyStr × PyStr)) (m : Mapping) : Prop :=
  m.link = link ∧ (∃ r ∈ s.index, r.id = m.index ∧ Fits s.cols cs r.labels) ∧ UsesOnly s.cols cs m.level

/-- A mapping without its proportion. -/
def Mapping.content (m : Mapping) : Nat × Nat × Int × Nat × List Byte × ℚ :=
  (m.id, m.link, m.other, m.index, m.level, m.value)

end Toron.Space

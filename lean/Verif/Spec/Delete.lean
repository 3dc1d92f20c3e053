/-
Words used to state what deleting index records does.
-/
import Verif.Model.Store.Space

namespace Toron.Space

open Toron.Selectors (PyStr Sel)

/-- A mapping without its proportion. -/
def Mapping.bare (m : Mapping) : Mapping := { m with prop := none }

/-- The records chosen by the arguments of a delete call: rows must repeat id and labels. -/
def Store.chosen (s : Store) (t : Target (Nat × List PyStr)) (r : IndexRec) : Bool :=
  match t with
  | .rows rs => decide ((r.id, r.labels) ∈ rs)
  | .criteria cs => matchesCriteria s.cols cs r.labels

/-- The share of a mapping's value in what the link maps from its source record: all equal if the sum is zero; nothing
for the undefined source record. -/
def shareAmong (ms : List Mapping) (m : Mapping) : ℚ :=
  let same := ms.filter fun x => x.link == m.link && x.other == m.other
  if m.other = 0 then 0
  else if (same.map (·.value)).sum = 0 then 1 / (same.length : ℚ) else m.value / (same.map (·.value)).sum

/-- The mappings after some records are gone: those of the other records; mappings of existing links from a source
record that lost a mapping get their share of what is left as their proportion. -/
def Store.mapsLeft (s : Store) (gone : Nat → Prop) [DecidablePred gone] : List Mapping :=
  let left := s.maps.filter fun m => decide (¬ gone m.index)
  left.map fun m =>
    if (∃ l ∈ s.links, l.id = m.link) ∧ ∃ x ∈ s.maps, gone x.index ∧ x.other = m.other then
      { m with prop := some (shareAmong left m) }
    else m

end Toron.Space

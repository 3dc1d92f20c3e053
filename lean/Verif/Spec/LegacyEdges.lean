/-
Notions used to state what links of the legacy class do.
-/
import Verif.Model.Legacy.Edges
import Verif.Spec.LegacySplit

namespace Toron.Legacy

open Toron.Selectors (PyStr CaseMap)
open Toron.Space (Attrs)

/-- What some sequence of calls makes out of a node with records (one of them the undefined one) and without links. -/
def Links.Reachable (l : Links) : Prop := ∃ index ops, index.Nodup ∧ 0 ∈ index ∧ l = (Links.new index).run ops

/-- The values that a link has for a source record, each with the record it leads to. -/
def Links.targets (l : Links) (link source : Nat) : List (Nat × ℚ) :=
  (l.rels.filter fun r => decide (r.link = link ∧ r.source = source)).map fun r => (r.index, r.value)

/-- The part of a source record that goes to a record: proportional to the values, or the same for all records if these are
zero. All of the undefined record goes to the undefined record. -/
def Links.part (l : Links) (link source index : Nat) : ℚ :=
  if source = 0 then if index = 0 then 1 else 0
  else (((l.targets link source).filter fun t => decide (t.1 = index)).map fun t =>
    partBy ((l.targets link source).map (·.2)) t.2).sum

/-- The value that is given last for a pair of records. -/
def lastGiven (given : List (Nat × Nat × ℚ)) (source index : Nat) : Option ℚ :=
  ((given.filter fun g => decide (g.1 = source ∧ g.2.1 = index)).getLast?).map (·.2.2)

/-- The value of a link for a pair of records. -/
def Links.valueOf (l : Links) (link source index : Nat) : Option ℚ :=
  ((l.targets link source).find? fun t => t.1 == index).map (·.2)

/-- The link of the given name from the given node. -/
def Links.find (l : Links) (other name : PyStr) : Option Link := l.links.find? fun e => e.other == other && e.name == name

/-- The default links from the given node. -/
def Links.defaults (l : Links) (other : PyStr) : List PyStr :=
  (l.links.filter fun e => e.other == other && e.isDefault).map (·.name)

/-- The link used for quantities with the given attributes: that of the complete links from the node whose selector matches with
the greatest unique specificity, else the default link. -/
def Links.linkFor (cm : CaseMap) (l : Links) (other : PyStr) (a : Attrs) : Except Err Nat :=
  match l.lookUp other with
  | .error e => .error e
  | .ok (d, sels) => Selectors.getMatchingKey cm sels d a

end Toron.Legacy

/-
Model of how a link of a legacy node is made again after index columns were removed (`src/toron/_dal.py` lines 1113-1171), with
`assign_matches_by_id` (`src/toron/_xmapper.py` lines 481-507).

The node is the one without the columns, and the relations are those after `Model/Legacy/RemoveLinks`. Of the link itself (name,
selectors, default) nothing is modelled. Floating-point values are rationals; the order of the rows is that of `reconstructed`.
-/
import Verif.Model.Legacy.KeepLink

namespace Toron.Legacy

open Toron.Selectors (PyStr)
open Toron.Space (IndexRec)

/-- The rows of the link that have a record of the other node (`_dal.py` lines 1115-1120). -/
def definedRows (index : List IndexRec) (rels : List Kept) : List (Nat × LinkRow) :=
  (reconstructed index rels).filterMap fun x => x.other.map fun o => (o, x)

/-- The rows in `source_mapping` (`_dal.py` line 1123, `_xmapper.py` lines 110-127), numbered from 1. NULL counts as empty label. The
id of the other record, which is the only label on the left, is kept in `assigned`. -/
def rebuiltRows (index : List IndexRec) (rels : List Kept) : List TableRow :=
  ((definedRows index rels).zipIdx 1).map fun p => ⟨p.2, [], p.1.2.labels.map fun l => l.getD [], p.1.2.value.getD 0⟩

/-- `assign_matches_by_id('left')` (`_dal.py` line 1124, `_xmapper.py` lines 494-507): the proportion is 1.0, which is what a match
without weight has. -/
def assigned (index : List IndexRec) (rels : List Kept) : List Found :=
  ((definedRows index rels).zipIdx 1).map fun p => ⟨p.2, p.1.1, none, none⟩

/-- The relations of the link that is made again (`_dal.py` lines 1125-1132, 1167). The limit is 12, and the weighting is the one that
is called like the link. -/
def Node.rebuildLink (n : Node) (before : List PyStr → List PyStr → Bool) (link : Nat) (name : PyStr) (rels : List Kept) :
    Except Err (List Kept) :=
  (n.findMatches ⟨before, 12, some name, false⟩ n.cols ((rebuiltRows n.index rels).map fun r => (r.run, r.right))).map
    fun dst => storedRelations link (rebuiltRows n.index rels) (assigned n.index rels) dst

end Toron.Legacy

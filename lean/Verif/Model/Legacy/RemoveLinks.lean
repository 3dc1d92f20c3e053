/-
Model of what the removal of index columns from a legacy node does to the relations of its links: relations to records that
are merged (`src/toron/_dal.py` lines 704-789) and mapping levels (`_dal.py` lines 1046-1100).

The tables are given. Of a relation the value is modelled; the proportion is summed in the same way, and computed anew
afterwards for links with mapping levels. The order of rows is not modelled. After these steps links with mapping levels are
read (`Model/Legacy/ReadLink`) and made again (`Model/Legacy/Mapper`).
-/
import Verif.Model.Legacy.ReadLink
import Verif.Model.Legacy.Remove

namespace Toron.Legacy

open Toron.Selectors (PyStr)

/-- What relations are grouped by besides the record (`_dal.py` line 744). -/
def relKey (x : Kept) : Nat × Nat × Option (List Byte) := (x.link, x.source, x.level)

/-- The rows `MissingIDs` (`_dal.py` lines 713-723): groups that have no relation to the record that is kept. NULL is equal
to NULL in `DISTINCT` and `EXCEPT`. -/
def missingRels (m : List (Nat × Nat)) (rels : List Kept) : List ((Nat × Nat × Option (List Byte)) × Nat) :=
  (distinct (rels.filterMap fun r => (m.lookup r.index).map fun new => (relKey r, new))).filter fun p =>
    !(rels.any fun r => (m.lookup r.index).isSome && decide (relKey r = p.1) && r.index == p.2)

/-- One row of the INSERT (`_dal.py` lines 724-726); the table has `UNIQUE (edge_id, other_index_id, index_id)`
(`_schema.py` line 116). -/
def insertRel (rels : List Kept) (p : (Nat × Nat × Option (List Byte)) × Nat) : Except Err (List Kept) :=
  if rels.any fun r => r.link == p.1.1 && r.source == p.1.2.1 && r.index == p.2 then
    .error (.integrityError "relation: UNIQUE")
  else .ok (rels ++ [⟨p.1.1, p.1.2.1, p.2, 0, p.1.2.2⟩])

/-- The INSERT (`_dal.py` lines 712-727). -/
def insertRels : List ((Nat × Nat × Option (List Byte)) × Nat) → List Kept → Except Err (List Kept)
  | [], rels => .ok rels
  | p :: ps, rels => match insertRel rels p with
    | .error e => .error e
    | .ok rels => insertRels ps rels

/-- The UPDATE that writes the sums (`_dal.py` lines 730-751). -/
def writeRelSums (m : List (Nat × Nat)) (rels : List Kept) : List Kept :=
  rels.map fun r =>
    if rels.any fun x => decide (relKey x = relKey r) && m.lookup x.index == some r.index then
      { r with value := ((rels.filter fun x => decide (relKey x = relKey r) && m.lookup x.index == some r.index).map
        (·.value)).sum }
    else r

/-- The statements that merge rows of `relation` (`_dal.py` lines 704-798). -/
def mergeRels (m : List (Nat × Nat)) (rels : List Kept) : Except Err (List Kept) :=
  match insertRels (missingRels m rels) rels with
  | .error e => .error e
  | .ok rels => .ok ((writeRelSums m rels).filter fun r => !(goes m r.index))

/-- The mapping level for the remaining columns (`_dal.py` lines 1054-1058). -/
def newLevel (cols drop : List PyStr) (b : List Byte) : List Byte :=
  (BitFlags.ofBits (Text.compress (BitFlags.ofBytes b).toBits (cols.map fun c => decide (c ∉ drop)))).bytes

/-- `UPDATE relation SET mapping_level=new WHERE mapping_level=old` (`_dal.py` lines 1096-1099). -/
def updateLevel (old new : List Byte) (rels : List Kept) : List Kept :=
  rels.map fun r => if r.level = some old then { r with level := some new } else r

/-- Levels that the new structure does not have (`_dal.py` lines 1060-1069); `structs` are the rows of the new structure. -/
def unrepresentable (cols drop : List PyStr) (structs : List (List Bool)) (olds : List (List Byte)) : List (List Byte) :=
  olds.filter fun b => newLevel cols drop b = [] ∨ newLevel cols drop b ∉ structs.map fun s => (BitFlags.ofBits s).bytes

/-- The change of the levels (`_dal.py` lines 1046-1100). `olds` are the different levels in the order in which SQLite gives
them. `allowed_levels.remove` raises KeyError if the empty level is not in the structure. -/
def changeLevels (cols drop : List PyStr) (structs : List (List Bool)) (preserve : Bool) (olds : List (List Byte))
    (rels : List Kept) : Except Err (List Kept) :=
  if [] ∉ structs.map fun s => (BitFlags.ofBits s).bytes then .error (.keyError "BitFlags2()")
  else if unrepresentable cols drop structs olds ≠ [] ∧ preserve then
    .error (.toronError "cannot remove; columns are needed to preserve ambiguous relations")
  else
    .ok ((olds.filter fun b => newLevel cols drop b ≠ b).foldl (fun rels b => updateLevel b (newLevel cols drop b) rels)
      (rels.filter fun r => !((unrepresentable cols drop structs olds).any fun b => r.level == some b)))

end Toron.Legacy

/-
Model of the relations that a legacy node is given by `xadd_edge`, with their mapping levels: `get_relations`
(`src/toron/_xmapper.py` lines 509-551) and `_add_edge_relations` (`src/toron/_dal.py` lines 2635-2657).

The order of the rows is that of the records; floating-point values are rationals.
-/
import Verif.Model.Legacy.Mapper
import Verif.Model.Legacy.ReadLink

namespace Toron.Legacy

open Toron.Selectors (PyStr)

/-- `bytes(BitFlags((col in key_cols) for col in index_columns))` (`_xmapper.py` line 287). -/
def levelBytes (flags : List Bool) : List Byte := (BitFlags.ofBits flags).bytes

/-- `get_relations` (`_xmapper.py` lines 531-551) with the level, as the rows of a link. -/
def keptRelations (link : Nat) (rows : List TableRow) (src dst : List Found) : List Kept :=
  (sortedBy keyLe ((relationPieces rows src dst).map (·.1)).dedup).map fun k =>
    ⟨link, k.1, k.2.1, (((relationPieces rows src dst).filter fun p => p.1 = k).map (·.2)).sum, k.2.2.map levelBytes⟩

/-- The rows that are stored (`_dal.py` lines 2644-2657): the relation between the undefined records is added and replaces one
that was given; other pairs are not given twice unless matches overlap. -/
def storedRelations (link : Nat) (rows : List TableRow) (src dst : List Found) : List Kept :=
  ((keptRelations link rows src dst).filter fun m => !(m.source == 0 && m.index == 0)) ++ [⟨link, 0, 0, 0, none⟩]

end Toron.Legacy

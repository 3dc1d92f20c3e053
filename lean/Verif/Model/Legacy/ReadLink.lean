/-
Model of reading a link of a legacy node: `get_incoming_edge` (`src/toron/_dal.py` lines 2881-3143) and
`_user_apply_bit_flag` (`src/toron/_schema.py` lines 348-400).

The tables are given. The order of the rows is not modelled. Floating-point values are rationals.
-/
import Verif.Model.Legacy.Edges
import Verif.Model.Text

namespace Toron.Legacy

open Toron.Selectors (PyStr)
open Toron.Space (IndexRec)

/-- A row of `relation` with its mapping level (`_schema.py` lines 106-117). -/
structure Kept where
  link : Nat
  source : Nat
  index : Nat
  value : ℚ
  level : Option (List Byte)
  deriving DecidableEq, Repr

/-- `_user_apply_bit_flag(label, level, i)` (`_schema.py` lines 389-400); `none` is NULL. -/
def shownLabel (label : PyStr) (level : Option (List Byte)) (i : Nat) : Option PyStr :=
  match level with
  | none => some label
  | some b => match (BitFlags.ofBytes b).getItem i with
    | .ok true => some label
    | _ => none

/-- The labels of a record under a level (`_dal.py` lines 2915-2916), beginning with column `i`. -/
def shownFrom (level : Option (List Byte)) (i : Nat) : List PyStr → List (Option PyStr)
  | [] => []
  | l :: ls => shownLabel l level i :: shownFrom level (i + 1) ls

/-- The labels of a record under a level. -/
def shownLabels (labels : List PyStr) (level : Option (List Byte)) : List (Option PyStr) := shownFrom level 0 labels

/-- `node_index a LEFT JOIN RelationValues b USING (index_id)` (`_dal.py` lines 2923-2941, 2997-3010). -/
def leftJoin (index : List IndexRec) (rels : List Kept) : List (IndexRec × Option Kept) :=
  index.flatMap fun r =>
    match rels.filter fun m => m.index == r.id with
    | [] => [(r, none)]
    | ms => ms.map fun m => (r, some m)

/-- A row of the result without ambiguous fields: other record, value, labels. -/
structure LinkRow where
  other : Option Nat
  value : Option ℚ
  labels : List (Option PyStr)
  deriving DecidableEq, Repr

/-- `SUM(…)`: NULL if there is no number. -/
def sqlSum (vs : List (Option ℚ)) : Option ℚ :=
  match vs.filterMap id with
  | [] => none
  | l => some l.sum

/-- What the rows are grouped by (`_dal.py` lines 2948-2950). -/
def groupKey (rm : IndexRec × Option Kept) : Option Nat × List (Option PyStr) :=
  (rm.2.map (·.source), shownLabels rm.1.labels (rm.2.bind (·.level)))

/-- The query of `_get_incoming_edge_reconstructed_make_sql` (`_dal.py` lines 2920-2955). -/
def reconstructed (index : List IndexRec) (rels : List Kept) : List LinkRow :=
  (((leftJoin index rels).map groupKey).dedup).map fun k =>
    ⟨k.1, sqlSum (((leftJoin index rels).filter fun rm => groupKey rm = k).map fun rm => rm.2.map (·.value)), k.2⟩

/-- A row of the result with ambiguous fields (`_dal.py` lines 2997-3010, 3064-3071). -/
structure ReifiedRow where
  other : Option Nat
  value : Option ℚ
  labels : List PyStr
  fields : Option PyStr
  deriving DecidableEq, Repr

/-- The rows with `reified=True` (`_dal.py` lines 2994-3014, 3060-3074). -/
def reified (cols : List PyStr) (index : List IndexRec) (rels : List Kept) : List ReifiedRow :=
  (leftJoin index rels).map fun rm =>
    ⟨rm.2.map (·.source), rm.2.map (·.value), rm.1.labels,
      (rm.2.bind (·.level)).map fun b => Text.commaJoin (Text.ambiguousFields b cols)⟩

/-- The relations of a link, found by the other node and the name (`_dal.py` lines 3120-3132); `fetchone()[0]` fails if there
is no such link. -/
def relationsNamed (links : List Link) (rels : List Kept) (other name : PyStr) : Except Err (List Kept) :=
  match links.find? fun e => e.other == other && e.name == name with
  | some e => .ok (rels.filter fun m => m.link == e.id)
  | none => .error (.typeError "'NoneType' object is not subscriptable")

/-- `get_incoming_edge(other_unique_id, name)` (`_dal.py` lines 3086-3143). -/
def getLinkRows (index : List IndexRec) (links : List Link) (rels : List Kept) (other name : PyStr) :
    Except Err (List LinkRow) :=
  (relationsNamed links rels other name).map (reconstructed index)

/-- `get_incoming_edge(other_unique_id, name, reified=True)`. -/
def getReifiedRows (cols : List PyStr) (index : List IndexRec) (links : List Link) (rels : List Kept) (other name : PyStr) :
    Except Err (List ReifiedRow) :=
  (relationsNamed links rels other name).map (reified cols index)

end Toron.Legacy

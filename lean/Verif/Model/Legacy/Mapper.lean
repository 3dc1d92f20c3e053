/-
Model of the legacy mapper `xMapper` (`src/toron/_xmapper.py` lines 49-553) and of `xadd_edge` (`src/toron/graph.py` lines
713-751), which makes links between two legacy nodes out of a table.
The table is given by its rows: the labels on either side of the column with the values, and the value. Finding this column
in the header and reading the rows (lines 93-127) is modelled in `Verif/Model/Legacy/MapTable.lean`, `assign_matches_by_id` in
`Verif/Model/Legacy/RebuildLink.lean`;
warnings are left out. The names of columns on one side are distinct
and none of them is `index_id`. Floating-point values are rationals.
-/
import Verif.Model.Legacy.Edges

namespace Toron.Legacy

open Toron.Selectors (PyStr)
open Toron.Space (IndexRec)

/-- A row of `source_mapping` (`_xmapper.py` lines 66-71). -/
structure TableRow where
  run : Nat
  left : List PyStr
  right : List PyStr
  value : ℚ
  deriving DecidableEq

/-- A row of `left_matches` or `right_matches` (`_xmapper.py` lines 72-85) without the proportion. The level is kept as the list
of flags it is made of. -/
structure Found where
  run : Nat
  index : Nat
  weight : Option ℚ
  level : Option (List Bool)
  deriving DecidableEq

/-- What is given for matching: the order of the texts that labels are stored as (JSON), `match_limit`, `weight_name` and
`allow_overlapping`. -/
structure MatchArgs where
  before : List PyStr → List PyStr → Bool
  limit : ℚ
  weighting : Option PyStr
  overlap : Bool

/-- `get_where_dict` (`_xmapper.py` lines 165-167): the labels that are not empty. -/
def whereOf (header labels : List PyStr) : List (PyStr × PyStr) := (header.zip labels).filter fun cl => cl.2 ≠ []

/-- `get_run_ids` (`_xmapper.py` lines 169-171): the rows with these labels. -/
def runsOf (rows : List (Nat × List PyStr)) (labels : List PyStr) : List Nat :=
  (rows.filter fun r => r.2 = labels).map (·.1)

/-- `weight_records` (`_dal.py` lines 1458-1503): the name of the weighting has to exist, but it does not restrict the rows of
`weight` that are joined. A record without any weights gives NULL. -/
def Node.weightRows (n : Node) (name : Option PyStr) (cells : List (PyStr × PyStr)) : Except Err (List (Nat × Option ℚ)) :=
  match name.or n.default with
  | none => .error (.keyError "None")
  | some name =>
    if n.weightings.any fun g => g.name == name then
      .ok ((n.recordsWhere cells).flatMap fun r =>
        match n.weights.filter fun w => w.index == r.id with
        | [] => [(r.id, none)]
        | ws => ws.map fun w => (r.id, some w.value))
    else .error (.keyError "name")

/-- The level of labels: which columns they refer to (`_xmapper.py` lines 218-219, 282-283). -/
def Node.levelOf (n : Node) (cells : List (PyStr × PyStr)) : List Bool := n.cols.map fun c => decide (c ∈ cells.map (·.1))

/-- What becomes of labels (`_match_exact_or_get_info`, `_xmapper.py` lines 189-236). -/
inductive Fit where
  | exact (index : Nat)
  | ambiguous (count : Nat)
  | skipped
  deriving DecidableEq

/-- `_match_exact_or_get_info` (`_xmapper.py` lines 189-236): one record, none, or several. -/
def Node.fit (n : Node) (limit : ℚ) (cells : List (PyStr × PyStr)) : Fit :=
  match n.recordsWhere cells with
  | [] => .skipped
  | [r] => .exact r.id
  | rs =>
    if n.levelOf cells ∈ n.structs.map (·.bits) then
      if (rs.length : ℚ) ≤ limit then .ambiguous rs.length else .skipped
    else .skipped

/-- `_match_ambiguous_or_get_info` (`_xmapper.py` lines 238-301). -/
def Node.addAmbiguous (n : Node) (a : MatchArgs) (header : List PyStr) (rows : List (Nat × List PyStr)) (found : List Found)
    (labels : List PyStr) : Except Err (List Found) := do
  let cells := whereOf header labels
  let records ← n.weightRows a.weighting cells
  let records := if a.overlap then records else records.filter fun r => !found.any fun m => m.index == r.1
  if records.any fun r => r.2.isNone then .ok found
  else if records.any fun r => decide (r.2.getD 0 < 0) then .error (.integrityError "CHECK constraint failed: weight_value")
  else .ok (found ++ (runsOf rows labels).flatMap fun run =>
    records.map fun r => ⟨run, r.1, r.2, some (n.levelOf cells)⟩)

/-- The matches of labels that fit one record (`_xmapper.py` lines 205-210). -/
def Node.exactMatches (n : Node) (a : MatchArgs) (header : List PyStr) (rows : List (Nat × List PyStr)) (labels : List PyStr) :
    List Found :=
  match n.fit a.limit (whereOf header labels) with
  | .exact i => (runsOf rows labels).map fun run => ⟨run, i, none, none⟩
  | _ => []

/-- The number of records for the order of ambiguous labels (`_xmapper.py` lines 457-458). -/
def Node.ambiguity (n : Node) (a : MatchArgs) (header labels : List PyStr) : Option (List PyStr × Nat) :=
  match n.fit a.limit (whereOf header labels) with
  | .ambiguous k => some (labels, k)
  | _ => none

/-- `find_matches` (`_xmapper.py` lines 372-478): first the labels that fit one record, then the ambiguous ones, those that fit
the fewest records first. -/
def Node.findMatches (n : Node) (a : MatchArgs) (header : List PyStr) (rows : List (Nat × List PyStr)) :
    Except Err (List Found) :=
  let groups := sortedBy a.before (rows.map (·.2)).dedup
  if a.limit < 1 then .error (.valueError "match_limit must be 1 or greater")
  else if groups.any fun g => (whereOf header g).any fun cl => decide (cl.1 ∉ n.cols) then .error (.keyError "key")
  else
    let exact := groups.flatMap (n.exactMatches a header rows)
    let ambiguous := sortedBy (fun x y : List PyStr × Nat => decide (x.2 ≤ y.2)) (groups.filterMap (n.ambiguity a header))
    (ambiguous.map (·.1)).foldlM (n.addAmbiguous a header rows) exact

/-- `_refresh_proportions` (`_xmapper.py` lines 303-324): dividing by zero gives NULL, which counts as one. -/
def proportionIn (found : List Found) (m : Found) : ℚ :=
  match m.weight with
  | none => 1
  | some w =>
    let total := ((found.filter fun x => x.run == m.run).map fun x => x.weight.getD 0).sum
    if total = 0 then 1 else w / total

/-- The rows that `get_relations` adds up (`_xmapper.py` lines 531-548): other record, record, level and amount. -/
def relationPieces (rows : List TableRow) (src dst : List Found) : List ((Nat × Nat × Option (List Bool)) × ℚ) :=
  rows.flatMap fun r => (src.filter fun a => a.run == r.run).flatMap fun a =>
    (dst.filter fun b => b.run == r.run).map fun b =>
      ((a.index, b.index, b.level), r.value * (proportionIn src a * proportionIn dst b))

/-- Lexicographic order of flags; no level comes first. -/
def levelLe : Option (List Bool) → Option (List Bool) → Bool
  | none, _ => true
  | some _, none => false
  | some a, some b => decide (a ≤ b)

/-- The order of relations (`_xmapper.py` line 549). -/
def keyLe (x y : Nat × Nat × Option (List Bool)) : Bool :=
  decide (x.1 < y.1) || (x.1 == y.1 && (decide (x.2.1 < y.2.1) || (x.2.1 == y.2.1 && levelLe x.2.2 y.2.2)))

/-- `get_relations` (`_xmapper.py` lines 509-551) without the level. -/
def relations (rows : List TableRow) (src dst : List Found) : List (Nat × Nat × ℚ) :=
  (sortedBy keyLe ((relationPieces rows src dst).map (·.1)).dedup).map fun k =>
    (k.1, k.2.1, (((relationPieces rows src dst).filter fun p => p.1 = k).map (·.2)).sum)

/-- A legacy node with its links. -/
structure Linked where
  uid : PyStr
  node : Node
  links : Links

/-- What `xadd_edge` is given besides the nodes: the columns on either side, the rows, and the directions. -/
structure Edge where
  name : PyStr
  leftKeys : List PyStr
  rightKeys : List PyStr
  rows : List TableRow
  toLeft : Bool
  toRight : Bool
  selectors : List PyStr

/-- The matches of both sides (`graph.py` lines 726-727). -/
def Edge.found (e : Edge) (a : MatchArgs) (left right : Node) : Except Err (List Found × List Found) := do
  let l ← left.findMatches a e.leftKeys (e.rows.map fun r => (r.run, r.left))
  let r ← right.findMatches a e.rightKeys (e.rows.map fun r => (r.run, r.right))
  .ok (l, r)

/-- `xadd_edge` (`graph.py` lines 713-751): both nodes are changed one after the other. -/
def Edge.add (e : Edge) (a : MatchArgs) (left right : Linked) : Linked × Linked × Except Err Unit :=
  match e.found a left.node right.node with
  | .error err => (left, right, .error err)
  | .ok (fl, fr) =>
    let one := if e.toLeft then left.links.add right.uid e.name (relations e.rows fr fl) e.selectors none else (left.links, .ok ())
    match one.2 with
    | .error err => ({ left with links := one.1 }, right, .error err)
    | .ok _ =>
      let two := if e.toRight then right.links.add left.uid e.name (relations e.rows fl fr) e.selectors none
        else (right.links, .ok ())
      ({ left with links := one.1 }, { right with links := two.1 }, two.2)

end Toron.Legacy

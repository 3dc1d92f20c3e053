/-
Model of how the legacy mapper reads its table: `xMapper.__init__` (`src/toron/_xmapper.py` lines 93-127), and of `xadd_edge`
(`src/toron/graph.py` lines 713-751) from the table on.

The table is given as a header and rows, as `make_readerlike` gives them; a table without a header is left out. Cells on either
side of the values are texts or missing. What SQLite takes a text for in a product is a parameter.
-/
import Verif.Model.Legacy.Mapper
import Verif.Model.MappingCsv
import Verif.Model.Edge
import Verif.Model.IndexCode

namespace Toron.Legacy

open Toron.Selectors (PyStr)

/-- A cell of the table. -/
inductive Cell where
  | missing
  | number (value : ℚ)
  | text (t : PyStr)
  deriving DecidableEq, Repr

/-- A label, as it is used in `get_where_dict` (`_xmapper.py` lines 165-167). Numbers as labels are not modelled. -/
def Cell.label : Cell → PyStr
  | .text t => t
  | _ => []

/-- The value of a row: the column `weight REAL NOT NULL` (`_xmapper.py` line 75) takes everything but NULL. A text that is not
a number is kept as a text; in the product (line 550) it counts as the number it begins with, or 0 (`numberIn`). -/
def Cell.value (numberIn : PyStr → ℚ) : Cell → Except Err ℚ
  | .missing => .error (.integrityError "NOT NULL constraint failed: source_mapping.weight")
  | .number q => .ok q
  | .text t => .ok (numberIn t)

/-- The rows of the table (`_xmapper.py` lines 109-127), numbered in order. Empty rows are skipped. -/
def readRows (numberIn : PyStr → ℚ) (pos : Nat) : Nat → List (List Cell) → Except Err (List TableRow)
  | _, [] => .ok []
  | run, [] :: rest => readRows numberIn pos run rest
  | run, (c :: cs) :: rest =>
    match (c :: cs)[pos]? with
    | none => .error (.indexError "list index out of range")
    | some v =>
      match v.value numberIn with
      | .error e => .error e
      | .ok value =>
        match readRows numberIn pos (run + 1) rest with
        | .error e => .error e
        | .ok rows => .ok (⟨run, ((c :: cs).take pos).map Cell.label, ((c :: cs).drop (pos + 1)).map Cell.label, value⟩ :: rows)

/-- What is given to `xadd_edge` besides the nodes. -/
structure MapTable where
  name : PyStr
  header : List PyStr
  rows : List (List Cell)
  direction : PyStr
  selectors : List PyStr

/-- `xMapper(data, name)` (`_xmapper.py` lines 93-127). The link is later added under the name as it was given (`graph.py`
lines 731, 741), while blanks at its ends are removed for the search (line 95). -/
def MapTable.read (numberIn : PyStr → ℚ) (t : MapTable) : Except Err Edge :=
  let fields := t.header.map IndexCode.strip
  match MappingCsv.valuePosition Edge.edgeName (IndexCode.strip t.name) fields with
  | none => .error (.valueError "name is not in data")
  | some pos =>
    match readRows numberIn pos 1 t.rows with
    | .error e => .error e
    | .ok rows => .ok
      { name := t.name, leftKeys := fields.take pos, rightKeys := fields.drop (pos + 1), rows := rows,
        toLeft := decide ('<' ∈ t.direction), toRight := decide ('>' ∈ t.direction), selectors := t.selectors }

/-- `xadd_edge(data, name, left_node, direction, right_node, …)` (`graph.py` lines 713-751). -/
def MapTable.add (numberIn : PyStr → ℚ) (t : MapTable) (a : MatchArgs) (left right : Linked) : Linked × Linked × Except Err Unit :=
  match t.read numberIn with
  | .error e => (left, right, .error e)
  | .ok e => e.add a left right

end Toron.Legacy

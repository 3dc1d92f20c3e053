/-
Model of reading and writing mappings as tables on the command line (`src/toron/cli/command_mapping.py`), with
`get_index_code_position` (`src/toron/cli/common.py` lines 361-392) and `get_mapping_value_position`
(`src/toron/mapper.py` lines 46-57).

A table is what `csv.reader` yields and what `csv.writer` is given: cells are texts, and `None` is written as an
empty text. The `csv` module, the streams, logging and exit codes are not modelled.
-/
import Verif.Model.Graph
import Verif.Model.IndexCode
import Verif.Model.Mapper
import Verif.Model.Text

namespace Toron.MappingCsv

open Toron.Selectors (PyStr)
open Toron.Space
open Toron.IndexCode (isCode toId toCode)
open Toron.Mapper (Side rowLevel buildMappings OutRow)

/-- A table: the first row and the other ones (`normalize_tabular`, `_utils.py` lines 72-127, for rows that are
sequences). -/
structure Table where
  header : List PyStr
  rows : List (List PyStr)
  deriving DecidableEq, Repr

/-- Python's text of a number, and the number that SQLite takes a text for. Python and SQLite agree about numbers;
what is no number counts as zero. (A text like `-1x` is simplified: SQLite would take it as a text in the check
of `mapping_source`, and as -1 afterwards.) -/
structure Numbers where
  text : ℚ → PyStr
  value : PyStr → ℚ
  value_text : ∀ q, value (text q) = q
  value_blank : value [] = 0

/-- `get_mapping_value_position` (`mapper.py` lines 46-57). `edge` is `parse_edge_shorthand(col).get('edge_name')`,
which is modelled in `Verif/Model/Edge.lean`. -/
def valuePosition (edge : PyStr → Option PyStr) (link : PyStr) (header : List PyStr) : Option Nat :=
  header.findIdx? fun c => c == link || edge c == some link

/-- The positions in a row that hold an index code (`cli/common.py` lines 371-374). -/
def codesIn (uid : List Byte) : Nat → List PyStr → Except Err (List Nat)
  | _, [] => .ok []
  | n, c :: cs => do
    let b ← isCode c uid
    let l ← codesIn uid (n + 1) cs
    .ok (if b then n :: l else l)

/-- `get_index_code_position` (`cli/common.py` lines 361-392), `none` for its `RuntimeError`. -/
def codePosition (uid : List Byte) (rows : List (List PyStr)) : Except Err (Option Nat) := do
  let hits ← flatMapE (codesIn uid 0) rows
  match distinct hits with
  | [p] => .ok (some p)
  | _ => .ok none

/-- Search in the sample, unless the position is known. -/
def searchCode (uid : List Byte) (sample : List (List PyStr)) : Option Nat → Except Err (Option Nat)
  | some p => .ok (some p)
  | none => codePosition uid sample

/-- The loop over samples of eight rows (`command_mapping.py` lines 77-107); the first argument is the number of
samples left. -/
def scan (u1 u2 : List Byte) : Nat → Option Nat → Option Nat → List (List PyStr) → Except Err (Option Nat × Option Nat)
  | 0, p1, p2, _ => .ok (p1, p2)
  | n + 1, p1, p2, rows =>
    if (rows.take 8).isEmpty then .ok (p1, p2)
    else do
      let q1 ← searchCode u1 (rows.take 8) p1
      let q2 ← searchCode u2 (rows.take 8) p2
      if q1.isSome && q2.isSome then .ok (q1, q2) else scan u1 u2 n q1 q2 (rows.drop 8)

/-- The result of `get_column_positions`: positions of the index codes, slices of the header, position of the
value. -/
structure Positions where
  code1 : Option Nat
  part1 : Nat × Nat
  code2 : Option Nat
  part2 : Nat × Nat
  value : Nat
  deriving DecidableEq, Repr

/-- The columns before the value and those after it. -/
def leftPart (v : Nat) : Nat × Nat := (0, v)
def rightPart (v n : Nat) : Nat × Nat := (v + 1, n)

/-- The part in which the position is (lines 126-138). -/
def partOf (v n p : Nat) : Nat × Nat := if p < v then leftPart v else rightPart v n

/-- The other part (lines 142-145 and 157-160). -/
def otherPart (v n p : Nat) : Nat × Nat := if p < v then rightPart v n else leftPart v

/-- `header[start:stop]`. -/
def slice (header : List PyStr) (p : Nat × Nat) : List PyStr := (header.take p.2).drop p.1

/-- `get_column_positions` (`command_mapping.py` lines 57-206). -/
def columnPositions (edge : PyStr → Option PyStr) (cols1 cols2 : List PyStr) (u1 u2 : List Byte) (link : PyStr)
    (t : Table) : Except Err Positions :=
  match valuePosition edge link t.header with
  | none => .error (.toronError "required column not found")
  | some v => do
    let n := t.header.length
    let p ← scan u1 u2 32 none none t.rows
    match p with
    | (some a, some b) =>
      if max a b < v || v < min a b then .error (.runtimeError "invalid column order in mapping data")
      else .ok ⟨some a, partOf v n a, some b, partOf v n b, v⟩
    | (some a, none) =>
      if cols2 = slice t.header (otherPart v n a) then .ok ⟨some a, partOf v n a, none, otherPart v n a, v⟩
      else .error (.toronError "unable to find FILE2 columns")
    | (none, some b) =>
      if cols1 = slice t.header (otherPart v n b) then .ok ⟨none, otherPart v n b, some b, partOf v n b, v⟩
      else .error (.toronError "unable to find FILE1 columns")
    | (none, none) =>
      if cols1 = slice t.header (leftPart v) ∧ cols2 = slice t.header (rightPart v n) then
        .ok ⟨none, leftPart v, none, rightPart v n, v⟩
      else .error (.toronError "no index codes found, unable to match by label columns")

/-- `row[i]`. -/
def cell (row : List PyStr) (i : Nat) : Except Err PyStr :=
  match row[i]? with
  | some c => .ok c
  | none => .error (.indexError "list index out of range")

/-- The first part of `get_location_factory` (`command_mapping.py` lines 237-254): the positions of the label
columns. -/
def labelPositions (header cols : List PyStr) (p : Nat × Nat) : Except Err (List (Option Nat)) :=
  if (slice header p).Nodup then
    .ok (cols.map fun c => ((slice header p).findIdx? fun x => x == c).map fun i => i + p.1)
  else .error (.valueError "found duplicate values in header")

/-- `get_location` (lines 256-258). -/
def location (positions : List (Option Nat)) (row : List PyStr) : Except Err (List PyStr) :=
  positions.mapM fun i =>
    match i with
    | some i => cell row i
    | none => .ok []

/-- `node_get_index_id` (lines 282-297). -/
def indexId (code : Option Nat) (uid : List Byte) (row : List PyStr) : Except Err (Option Int) :=
  match code with
  | none => .ok none
  | some p => do
    let c ← cell row p
    if c.isEmpty then .ok none
    else
      match toId c uid with
      | .ok i => .ok (some i)
      | .error (.valueError m) => .error (.toronError m)
      | .error e => .error e

/-- What a row says about both nodes, and its value (lines 342-355, without the levels). -/
structure Line where
  id1 : Option Int
  labels1 : List PyStr
  id2 : Option Int
  labels2 : List PyStr
  value : PyStr
  deriving DecidableEq, Repr

/-- The body of the loop (lines 338-355). -/
def readRow (u1 u2 : List Byte) (p : Positions) (l1 l2 : List (Option Nat)) (row : List PyStr) : Except Err Line := do
  let id1 ← indexId p.code1 u1 row
  let labels1 ← location l1 row
  let id2 ← indexId p.code2 u2 row
  let labels2 ← location l2 row
  let value ← cell row p.value
  .ok ⟨id1, labels1, id2, labels2, value⟩

/-- `normalize_mapping_data` (`command_mapping.py` lines 310-355). (The rows are read lazily there, so that an
error of a row may come after the mapper's error about a row before.) -/
def readTable (edge : PyStr → Option PyStr) (cols1 cols2 : List PyStr) (u1 u2 : List Byte) (link : PyStr)
    (t : Table) : Except Err (List Line) := do
  let p ← columnPositions edge cols1 cols2 u1 u2 link t
  let l1 ← labelPositions t.header cols1 p.part1
  let l2 ← labelPositions t.header cols2 p.part2
  t.rows.mapM (readRow u1 u2 p l1 l2)

/-- A number that is no id of the file. -/
def noId (s : Store) : Nat := (s.index.map (·.id)).foldl max 0 + 1

/-- What the mapper gets about a node (lines 300-307 and 346-352). Ids are never negative; a negative number from
an index code is replaced by another one that is no id. -/
def side (s : Store) (id : Option Int) (labels : List PyStr) : Side :=
  let i := id.map fun i => if i < 0 then noId s else i.toNat
  ⟨i, labels, rowLevel s i labels⟩

/-- A line as given to the mapper. -/
def Line.toData (N : Numbers) (s1 s2 : Store) (x : Line) : Side × Side × ℚ :=
  (side s1 x.id1 x.labels1, side s2 x.id2 x.labels2, N.value x.value)

/-- `read_from_stdin` (`command_mapping.py` lines 358-447) up to the mappings of both directions. -/
def readMapping (edge : PyStr → Option PyStr) (N : Numbers) (s1 s2 : Store) (u1 u2 : List Byte) (link : PyStr)
    (limit : Nat) (allow : Bool) (t : Table) : Except Err (List OutRow × List OutRow) := do
  let lines ← readTable edge s1.cols s2.cols u1 u2 link t
  buildMappings s1 s2 limit allow (lines.map (Line.toData N s1 s2))

/-- The labels of a source record, empty if it does not exist (`command_mapping.py` lines 547-557). -/
def sourceLabels (s : Store) (i : Int) : List PyStr :=
  match s.index.find? fun r => (r.id : Int) == i with
  | some r => r.labels
  | none => s.cols.map fun _ => []

/-- The cells for the source record (lines 541-557). -/
def sourceCells (s : Store) (uid : List Byte) : Option Int → Except Err (List PyStr)
  | some i => do
    let c ← toCode i uid
    .ok (c :: sourceLabels s i)
  | none => .ok ([] :: s.cols.map fun _ => [])

/-- The cells for the target record (lines 559-568). -/
def targetCells (s : Store) (uid : List Byte) : Option Nat → Except Err (List PyStr)
  | some i =>
    match s.index.find? fun r => r.id == i with
    | some r => do
      let c ← toCode i uid
      .ok (c :: r.labels)
    | none => .error (.keyError "no index with id")
  | none => .ok ([] :: s.cols.map fun _ => [])

/-- The name of the column for ambiguous fields (line 517). -/
def ambiguousHeader : PyStr := ['a', 'm', 'b', 'i', 'g', 'u', 'o', 'u', 's', '_', 'f', 'i', 'e', 'l', 'd', 's']

/-- Whether there is a column for ambiguous fields (lines 509-519). -/
def hasAmbiguous (trg : Store) (link : Nat) : Bool :=
  let levels := distinct ((trg.maps.filter fun m => m.link == link).map (·.level))
  !(levels.isEmpty || levels == [(BitFlags.ofBits (trg.cols.map fun c => !c.isEmpty)).bytes])

/-- A row of the written table (lines 570-578). -/
def writeRow (N : Numbers) (src trg : Store) (u1 u2 : List Byte) (amb : Bool) (e : MapElement) :
    Except Err (List PyStr) := do
  let a ← sourceCells src u1 e.source
  let b ← targetCells trg u2 e.target
  .ok (a ++ [(e.value.map N.text).getD []] ++ b ++
    if amb then [(Text.ambiguousText e.level trg.cols).getD []] else [])

/-- `write_to_stdout` (`command_mapping.py` lines 472-605). `h1` and `h2` are the names that
`make_index_code_header` makes from the domains. -/
def writeMapping (N : Numbers) (src trg : Store) (u1 u2 : List Byte) (h1 h2 link : PyStr) : Except Err Table := do
  match ((trg.links.filter fun l => l.other == src.uid).filter fun l => l.name == link).getLast? with
  | none => .error (.keyError "no link with that name")
  | some l =>
    let amb := hasAmbiguous trg l.id
    let rows ← (trg.linkElements src l).mapM (writeRow N src trg u1 u2 amb)
    .ok ⟨h1 :: src.cols ++ link :: h2 :: trg.cols ++ (if amb then [ambiguousHeader] else []), rows⟩

end Toron.MappingCsv

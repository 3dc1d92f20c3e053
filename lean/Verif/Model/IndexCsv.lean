/-
Model of reading and writing the index as a table on the command line (`src/toron/cli/command_index.py`), with
`remap_index_codes_to_index_ids` (`src/toron/cli/common.py` lines 390-410) and the part of `insert_index` that lays out
columns and converts cells (`src/toron/space.py` lines 586-655).

A table is what `csv.reader` yields and what `csv.writer` is given. The `csv` module, the streams, logging and exit
codes are not modelled.
-/
import Verif.Model.MappingCsv
import Verif.Model.Store.Ops

namespace Toron.IndexCsv

open Toron.Selectors (PyStr)
open Toron.Space
open Toron.IndexCode (isCode toId toCode)
open Toron.MappingCsv (Table codePosition)

/-- Python's text of a float and `float(text)` (`none` for `ValueError`). Numbers are exact; NaN and infinities are
left out. -/
structure Floats where
  text : ℚ → PyStr
  parse : PyStr → Option ℚ
  parse_text : ∀ q, parse (text q) = some q
  text_ne : ∀ q, text q ≠ []

/-! ### Writing -/

/-- `'index_code'`. -/
def codeName : PyStr := ['i', 'n', 'd', 'e', 'x', '_', 'c', 'o', 'd', 'e']

/-- `'index_id'`. -/
def idName : PyStr := ['i', 'n', 'd', 'e', 'x', '_', 'i', 'd']

/-- The name of the first column (`command_index.py` lines 97-104). -/
def codeHeader (domain : PyStr) : PyStr :=
  (if domain = [] then [] else (domain.map fun c => if c = ' ' then '_' else c) ++ ['_']) ++ codeName

/-- The order of the groups: the default group first, then by name (line 83). -/
def groupLe (dflt : Option Nat) (a b : WGroup) : Bool :=
  if (some a.id == dflt) == (some b.id == dflt) then decide (a.name.map Char.toNat ≤ b.name.map Char.toNat)
  else some a.id == dflt

/-- The groups as written (lines 77-83). -/
def sortedGroups (s : Store) : List WGroup := sortedBy (groupLe s.defaultWG.join) s.wgroups

/-- The cell with a weight (lines 89-94). -/
def weightCell (F : Floats) (s : Store) (i : Nat) (g : WGroup) : PyStr :=
  match s.weightOf g.id i with
  | some v => F.text v
  | none => if i = 0 then F.text 0 else []

/-- A row of the written table (lines 110-115). -/
def writeRow (F : Floats) (uid : List Byte) (s : Store) (r : IndexRec) : Except Err (List PyStr) := do
  let c ← toCode r.id uid
  .ok (c :: r.labels ++ (sortedGroups s).map (weightCell F s r.id))

/-- The header and the rows of the given records (lines 100-115). -/
def writeRecords (F : Floats) (uid : List Byte) (s : Store) (recs : List IndexRec) : Except Err Table := do
  let rows ← recs.mapM (writeRow F uid s)
  .ok ⟨codeHeader s.getDomain :: s.cols ++ (sortedGroups s).map (·.name), rows⟩

/-- `write_to_stdout` (`command_index.py` lines 69-119). (`find_all` gives the records in an order that SQLite chooses;
here the order in which they were added.) -/
def writeIndex (F : Floats) (uid : List Byte) (s : Store) : Except Err Table := writeRecords F uid s s.index

/-! ### Reading -/

/-- A cell after index codes have been replaced by numbers. -/
inductive Cell
  | text (t : PyStr)
  | id (i : Int)
  deriving DecidableEq, Repr

/-- A row with the index code replaced (`common.py` lines 402-410). -/
def remapRow (uid : List Byte) (p : Nat) (row : List PyStr) : Except Err (List Cell) :=
  match row[p]? with
  | none => .error (.indexError "list index out of range")
  | some c =>
    if c = [] then .ok (row.map .text)
    else do
      let i ← toId c uid
      .ok ((row.map .text).set p (.id i))

/-- The header and rows that are given to `insert_index` (`command_index.py` lines 30-47). The sample is the first ten
rows, the header being one of them. -/
def remap (uid : List Byte) (t : Table) : Except Err (List PyStr × List (List Cell)) := do
  let p ← codePosition uid (t.header :: t.rows.take 9)
  match p with
  | some p => do
    let rows ← t.rows.mapM (remapRow uid p)
    .ok (t.header.set p idName, rows)
  | none =>
    if idName ∈ t.header then .error (.runtimeError "found unexpected column 'index_id'")
    else .ok (t.header, t.rows.map fun row => row.map .text)

/-- `row[columns.index(name)]`; `ValueError` if there is no such column. -/
def lookup (name : PyStr) : List PyStr → List Cell → Except Err Cell
  | [], _ => .error (.valueError "tuple.index(x): x not in tuple")
  | h :: hs, row =>
    if h = name then
      match row with
      | [] => .error (.indexError "index out of range")
      | c :: _ => .ok c
    else lookup name hs row.tail

/-- The cells of the columns whose names satisfy `f` (`space.py` lines 625-630 and 697-698). -/
def pick (f : PyStr → Bool) : List PyStr → List Cell → Except Err (List Cell)
  | [], _ => .ok []
  | h :: hs, row => do
    let rest ← pick f hs row.tail
    if f h then
      match row with
      | [] => .error (.indexError "index out of range")
      | c :: _ => .ok (c :: rest)
    else .ok rest

/-- A label. (A column named `index_id` cannot be a label column, so a label is a text.) -/
def Cell.label : Cell → Except Err PyStr
  | .text t => .ok t
  | .id _ => .error (.typeError "number instead of label")

/-- A weight (`space.py` lines 698-702). -/
def Cell.weight (F : Floats) : Cell → Except Err (Option ℚ)
  | .text t =>
    if t = [] then .ok none
    else match F.parse t with
      | some q => .ok (some q)
      | none => .error (.valueError "could not convert string to float")
  | .id i => .ok (some i)

/-- The `index_id` cell (`space.py` lines 607-612, 665-669). A negative number is no id. (A text in the column
`index_id` is empty, see `remap`.) -/
def readId (header : List PyStr) (row : List Cell) : Except Err (Option Nat) :=
  if idName ∈ header then
    match lookup idName header row with
    | .error e => .error e
    | .ok (.text _) => .ok none
    | .ok (.id i) => if i < 0 then .error (.keyError "no index with id") else .ok (some i.toNat)
  else .ok none

/-- A row of `insert_index` before anything is stored (`space.py` lines 651-702), `none` if the row is skipped.
`hasLabels`: there are label columns. (All rows are converted before the first is stored; if a row is wrong, another
exception may be raised first in the program, but nothing is stored either way.) -/
def readRow (F : Floats) (cols groups : List PyStr) (hasLabels : Bool) (header : List PyStr) (row : List Cell) :
    Except Err (Option IndexRow) :=
  if row = [] then .ok none
  else do
    let labels ← (if hasLabels then cols else []).mapM fun c => lookup c header row >>= Cell.label
    if [] ∈ labels then .ok none
    else do
      let i ← readId header row
      let cells ← pick (fun h => decide (h ∈ groups)) header row
      let ws ← cells.mapM (Cell.weight F)
      .ok (some ⟨i, if hasLabels then some labels else none, ws⟩)

/-- The columns and rows for `insert_index` (`space.py` lines 586-655). -/
def readRows (F : Floats) (cols groups : List PyStr) (header : List PyStr) (rows : List (List Cell)) :
    Except Err (List PyStr × List IndexRow) :=
  let hasLabels := header.any fun h => decide (h ∈ cols)
  if hasLabels ∧ ¬ (∀ c ∈ cols, c ∈ header) then .error (.valueError "missing required columns")
  else do
    let rs ← rows.mapM (readRow F cols groups hasLabels header)
    .ok (header.filter fun h => decide (h ∈ groups), rs.filterMap id)

/-- `read_from_stdin` (`command_index.py` lines 28-66) for a table that is not empty: the new state and the outcome. -/
def loadIndex (F : Floats) (uid : List Byte) (pl pw : Policy) (t : Table) (s : Store) : Store × Except Err Unit :=
  match (do let x ← remap uid t; readRows F s.cols (s.wgroups.map WGroup.name) x.1 x.2) with
  | .error e => (s, .error e)
  | .ok (wcols, rows) => step (.insertIndex none wcols pl pw rows) s

end Toron.IndexCsv

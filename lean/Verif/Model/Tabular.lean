/-
Model of the functions on tables in `src/toron/_utils.py` (lines 72-356 and 696-825).

Column names are strings. Generators are modelled by the list of what they yield; rows yielded before an
exception is raised are not represented.
-/
import Verif.Model.Selectors
import Mathlib.Data.Rat.Defs

namespace Toron.Tabular

open Toron.Selectors (PyStr)

/-- A cell of a table. -/
inductive Cell where
  | none
  | text (s : PyStr)
  | num (q : ℚ)
  deriving DecidableEq

/-- A dictionary row: keys in order of insertion. -/
abbrev DictRow := List (PyStr × Cell)

/-- `d[k] = v`. -/
def DictRow.set (d : DictRow) (k : PyStr) (v : Cell) : DictRow :=
  if k ∈ d.map (·.1) then d.map fun kv => if kv.1 = k then (k, v) else kv else d ++ [(k, v)]

/-- `d.get(k)`; absent keys give `None`. -/
def DictRow.getNone (d : DictRow) (k : PyStr) : Cell := (d.lookup k).getD .none

/-- `dict(items)`. -/
def dictOf (items : List (PyStr × Cell)) : DictRow := items.foldl (fun d kv => DictRow.set d kv.1 kv.2) []

/-- Tabular input: sequences (the first one is the header) or mappings. -/
inductive Table where
  | seqs (rows : List (List Cell))
  | dicts (rows : List DictRow)

/-- `verify_columns_set` (`_utils.py` lines 130-159). -/
def verifyColumnsSet (columns required : List PyStr) (allowExtras : Bool) : Except Err Unit :=
  if allowExtras then
    if (required.filter fun x => x ∉ columns) ≠ [] then .error (.valueError "invalid column names") else .ok ()
  else if (required.filter fun x => x ∉ columns) ≠ [] ∨ (columns.filter fun x => x ∉ required) ≠ [] then
    .error (.valueError "invalid column names")
  else .ok ()

/-- The text of a header cell. (Headers with other cells than strings are not modelled.) -/
def Cell.name : Cell → PyStr
  | .text s => s
  | _ => []

/-- `make_dictreaderlike` (`_utils.py` lines 225-252): `dict(zip(fieldnames, row))`. -/
def makeDictRows : Table → List DictRow
  | .dicts rows => rows
  | .seqs [] => []
  | .seqs (header :: rows) => rows.map fun row => dictOf ((header.map Cell.name).zip row)

/-- One output row of `wide_to_narrow` (`_utils.py` lines 342-356). -/
def narrowRow (cols : List PyStr) (var val : PyStr) (r : DictRow) (c : PyStr) : Except Err DictRow :=
  match r.lookup c with
  | none => .error (.keyError "wide_to_narrow column not found")
  | some v =>
    .ok (DictRow.set (DictRow.set (r.filter fun kv => kv.1 ∉ cols) var (.text c)) val v)

/-- The output rows of one input row (`_utils.py` lines 331-356). -/
def narrowRows (cols : List PyStr) (var val : PyStr) (r : DictRow) : Except Err (List DictRow) :=
  if var ∈ r.map (·.1) then .error (.valueError "must provide alternate name for variable column")
  else if val ∈ r.map (·.1) then .error (.valueError "must provide alternate name for value column")
  else cols.mapM (narrowRow cols var val r)

/-- `wide_to_narrow` (`_utils.py` lines 253-356). -/
def wideToNarrow (data : Table) (cols : List PyStr) (var val : PyStr) : Except Err (List DictRow) := do
  let parts ← (makeDictRows data).mapM (narrowRows cols var val)
  .ok parts.flatten

/-- The output rows of one sequence row of `wide_to_long` (`_utils.py` lines 789-793). A cell beyond the header
gets the key `None` and is never read; such cells are left out here. -/
def longSeqRow (header cols : List PyStr) (row : List Cell) : List (List Cell) :=
  let d := dictOf (header.zip (row ++ List.replicate (header.length - row.length) .none))
  cols.map fun c => (header.filter fun x => x ∉ cols).map (DictRow.getNone d) ++ [.text c, DictRow.getNone d c]

/-- The output rows of one dictionary row of `wide_to_long` (`_utils.py` lines 805-811). -/
def longDictRow (keep cols : List PyStr) (var val : PyStr) (r : DictRow) : List DictRow :=
  cols.map fun c => DictRow.set (DictRow.set (keep.map fun k => (k, DictRow.getNone r k)) var (.text c)) val
    (DictRow.getNone r c)

/-- `wide_to_long` (`_utils.py` lines 696-825). `next()` of an empty iterator raises `StopIteration` inside a
generator, which Python turns into `RuntimeError`. -/
def wideToLong (data : Table) (cols : List PyStr) (var val : PyStr) : Except Err Table :=
  match data with
  | .seqs [] => .error (.runtimeError "generator raised StopIteration")
  | .dicts [] => .error (.runtimeError "generator raised StopIteration")
  | .seqs (h :: rows) =>
    let header := h.map Cell.name
    if ¬ (∀ c ∈ cols, c ∈ header) then .error (.valueError "columns missing from data")
    else .ok (.seqs (((header.filter fun x => x ∉ cols) ++ [var, val]).map Cell.text ::
      rows.flatMap (longSeqRow header cols)))
  | .dicts (first :: rows) =>
    if ¬ (∀ c ∈ cols, c ∈ first.map (·.1)) then .error (.valueError "columns missing from data")
    else .ok (.dicts ((first :: rows).flatMap
      (longDictRow ((first.map (·.1)).filter fun x => x ∉ cols) cols var val)))

end Toron.Tabular

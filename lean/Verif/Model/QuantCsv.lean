/-
Model of reading and writing quantities as a table on the command line (`src/toron/cli/command_quantity.py`), with the
part of `insert_quantities2` that lays out columns and converts cells (`src/toron/space.py` lines 2306-2348).

A table is what `csv.reader` yields and what `csv.writer` is given. The `csv` module, the streams, logging and exit
codes are not modelled.
-/
import Verif.Model.IndexCsv
import Verif.Model.Store.Select

namespace Toron.QuantCsv

open Toron.Selectors (PyStr)
open Toron.Space
open Toron.MappingCsv (Table)
open Toron.IndexCsv (Floats)

/-- `'domain'`. -/
def domainName : PyStr := ['d', 'o', 'm', 'a', 'i', 'n']

/-- `'quantity'`. -/
def quantityName : PyStr := ['q', 'u', 'a', 'n', 't', 'i', 't', 'y']

/-! ### Writing -/

/-- The header (`space.py` lines 2482-2489). -/
def headerOf (s : Store) : List PyStr :=
  (if s.getDomain = [] then [] else [domainName]) ++ (s.cols ++ (s.regAttrs.getD [] ++ [quantityName]))

/-- A row (`space.py` line 2500); the `csv` writer writes `None` as an empty cell. -/
def writeView (F : Floats) (v : QuantView) : List PyStr :=
  v.domain ++ (v.labels ++ (v.attrs.map (fun a => a.getD []) ++ [F.text v.value]))

/-- `write_to_stdout` (`command_quantity.py` lines 47-61). -/
def writeQuantities (F : Floats) (s : Store) : Except Err Table := do
  let vs ← s.selectQuantities2
  .ok ⟨headerOf s, vs.map (writeView F)⟩

/-! ### Reading -/

/-- `dict(zip(columns, row)).get(k)` (`space.py` line 2338): the last column of that name counts. -/
def cell (header row : List PyStr) (k : PyStr) : Option PyStr := (header.zip row).reverse.lookup k

/-- `row_dict[k]`. -/
def cellE (header row : List PyStr) (k : PyStr) : Except Err PyStr :=
  match cell header row k with
  | some v => .ok v
  | none => .error (.keyError "no such column")

/-- A row of `insert_quantities2` before anything is stored (`space.py` lines 2337-2348 and the value in line 2393,
which is not used if there are no attributes). The conversion of the value is done by SQLite, whose column takes texts
that look like a number, and no others. (All rows are converted before the first is stored: if a row is wrong, another
exception may be raised first in the program, but nothing is stored either way. One case is left out: under `ignore`,
the program also ignores a value that is not a number if there already is a quantity.) -/
def readRow (F : Floats) (cols attrs : List PyStr) (col : PyStr) (header row : List PyStr) : Except Err QuantRow := do
  let as ← attrs.mapM fun k => do
    let v ← cellE header row k
    .ok (k, v)
  let labels ← cols.mapM (cellE header row)
  if as.all fun kv => decide (kv.2 = []) then .ok ⟨cell header row domainName, labels, as, 0⟩
  else do
    let t ← cellE header row col
    match F.parse t with
    | some q => .ok ⟨cell header row domainName, labels, as, q⟩
    | none => .error (.integrityError "CHECK constraint failed")

/-- `read_from_stdin` (`command_quantity.py` lines 23-44) with `insert_quantities2` (`space.py` lines 2306-2335): the new
state and the outcome. `col` is the option `--column`. -/
def loadQuantities (F : Floats) (col : PyStr) (allowLabel allowPartition : Bool) (p : Policy) (t : Table) (s : Store) :
    Store × Except Err Unit :=
  if s.regAttrs.getD [] = [] then (s, .error (.toronError "no attributes registered"))
  else if ¬ (∀ c ∈ s.cols ++ [col], c ∈ t.header) then (s, .error (.valueError "missing required columns"))
  else
    match t.rows.mapM (readRow F s.cols ((s.regAttrs.getD []).filter fun a => decide (a ∈ t.header)) col t.header) with
    | .error e => (s, .error e)
    | .ok rows => step (.insertQuantities2 allowLabel allowPartition p rows) s

end Toron.QuantCsv

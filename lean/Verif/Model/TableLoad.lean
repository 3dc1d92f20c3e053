/-
Tables as they are given to the methods of a dataspace: rows with a header, rows and column names, or dictionaries
(`normalize_tabular`, `_utils.py` lines 72-127), and how the methods of `space.py` take their values from them. What is
done with the values is in `Model/Store/Space`.
-/
import Verif.Model.Store.Ops
import Verif.Model.Tabular
import Verif.Model.IndexCsv
import Verif.Model.QuantCsv

namespace Toron.TableLoad

open Toron.Selectors (PyStr)
open Toron.Tabular (Cell DictRow Table)
open Toron.Space
open Toron.IndexCsv (idName)
open Toron.QuantCsv (domainName)

/-- `normalize_tabular(data, columns)` (`_utils.py` lines 72-127): the rows and the column names. (Rows of a kind that is
neither are not modelled, nor are tables that mix kinds.) -/
def normalize (t : Table) (columns : Option (List PyStr)) : List (List Cell) × List PyStr :=
  match t with
  | .seqs [] => ([], columns.getD [])
  | .dicts [] => ([], columns.getD [])
  | .seqs (first :: rest) =>
    if columns.getD [] = [] then (rest, first.map Cell.name) else (first :: rest, columns.getD [])
  | .dicts (first :: rest) =>
    let names := if columns.getD [] = [] then first.map (·.1) else columns.getD []
    ((first :: rest).map fun row => names.map row.getNone, names)

/-- How texts are read as numbers: `int(text)`, `float(text)` (NaN and infinities left out), and SQLite's conversion of a
text for a numeric column. -/
structure Reads where
  int : PyStr → Option Int
  float : PyStr → Option ℚ
  sql : PyStr → Option ℚ

/-- `int(cell)`. -/
def Reads.intOf (rd : Reads) : Cell → Except Err Int
  | .none => .error (.typeError "int()")
  | .text t => match rd.int t with
    | some i => .ok i
    | none => .error (.valueError "invalid literal for int()")
  | .num q => .ok (if 0 ≤ q then q.floor else -(-q).floor)

/-- `float(cell)`. -/
def Reads.floatOf (rd : Reads) : Cell → Option ℚ
  | .none => none
  | .text t => rd.float t
  | .num q => some q

/-- The number that SQLite takes a cell for in a numeric column. -/
def Reads.sqlOf (rd : Reads) : Cell → Option ℚ
  | .none => none
  | .text t => rd.sql t
  | .num q => some q

/-- `index_repo.get(cell)` (`repositories.py` lines 56-67): the record whose id SQLite takes for equal to the cell. -/
def Reads.record (rd : Reads) (s : Store) (c : Cell) : Option IndexRec :=
  match rd.sqlOf c with
  | some q => s.index.find? fun r => decide ((r.id : ℚ) = q)
  | none => none

/-- The columns with the cells of a row, `none` where the row is too short. -/
def cells (header : List PyStr) (row : List Cell) : List (PyStr × Option Cell) :=
  header.zipIdx.map fun ni => (ni.1, row[ni.2]?)

/-- `row[columns.index(name)]` for a name that is in `columns`. -/
def cellAt (header : List PyStr) (row : List Cell) (name : PyStr) : Except Err Cell :=
  match (cells header row).lookup name with
  | some (some c) => .ok c
  | _ => .error (.indexError "row")

/-- `dict(zip(columns, row)).get(name)`: the last column of that name counts. -/
def dictGet (header : List PyStr) (row : List Cell) (name : PyStr) : Option Cell := (header.zip row).reverse.lookup name

/-- `row_dict[name]`. -/
def dictAt (header : List PyStr) (row : List Cell) (name : PyStr) : Except Err Cell :=
  match dictGet header row name with
  | some c => .ok c
  | none => .error (.keyError "no such column")

/-- A cell that is stored as a label. (SQLite would store the digits of a number; this is left out.) -/
def labelOf : Cell → Except Err PyStr
  | .text t => .ok t
  | .none => .error (.integrityError "NOT NULL")
  | .num _ => .error (.typeError "number instead of label")

/-! ### `insert_index` -/

/-- The weight of a cell (`space.py` lines 697-702). -/
def weightOfCell (rd : Reads) : Option Cell → Except Err (Option ℚ)
  | none => .error (.indexError "row")
  | some c =>
    if c = .none ∨ c = .text [] then .ok none
    else match rd.floatOf c with
      | some v => .ok (some v)
      | none => .error (.valueError "could not convert string to float")

/-- The id of a row (`space.py` lines 607-612, 665-669). A negative number is no id. -/
def idOfRow (rd : Reads) (header : List PyStr) (row : List Cell) : Except Err (Option Nat) :=
  if idName ∈ header then do
    let c ← cellAt header row idName
    if c = .text [] then .ok none
    else do
      let i ← rd.intOf c
      match i with
      | .ofNat n => .ok (some n)
      | .negSucc _ => .error (.keyError "no index with id")
  else .ok none

/-- A row of `insert_index` before anything is stored (`space.py` lines 651-702), `none` if it is skipped. `groups`: whether
a column is the column of a weight group. (All rows are read before the first is stored: if a row is wrong then another
exception may be raised first in the program, but nothing is stored either way.) -/
def indexRow (rd : Reads) (cols : List PyStr) (groups : PyStr → Bool) (header : List PyStr) (row : List Cell) :
    Except Err (Option IndexRow) :=
  if row = [] then .ok none
  else do
    let hasLabels := header.any fun h => decide (h ∈ cols)
    let labels ← (if hasLabels then cols else []).mapM fun c => do labelOf (← cellAt header row c)
    if [] ∈ labels then .ok none
    else do
      let idv ← idOfRow rd header row
      let ws ← ((cells header row).filter fun nc => groups nc.1).mapM fun nc => weightOfCell rd nc.2
      .ok (some ⟨idv, if hasLabels then some labels else none, ws⟩)

/-- `insert_index` (`space.py` lines 575-757). -/
def insertIndexTable (rd : Reads) (t : Table) (columns : Option (List PyStr)) (weights : Option (List PyStr)) (pl pw : Policy)
    (s : Store) : Store × Except Err Unit :=
  let x := normalize t columns
  let groups : PyStr → Bool := fun n => match weights with
    | none => (s.findWGroup n).isSome
    | some l => decide (n ∈ l)
  if ¬ (∀ n ∈ weights.getD [], n ∈ x.2) then (s, .error (.keyError "weights not in input data"))
  else if s.cols = [] then (s, .error (.exception "no label columns defined"))
  else if (x.2.any fun h => decide (h ∈ s.cols)) ∧ ¬ (∀ c ∈ s.cols, c ∈ x.2) then
    (s, .error (.valueError "missing required columns"))
  else
    match x.1.mapM (indexRow rd s.cols groups x.2) with
    | .error e => (s, .error e)
    | .ok rows => step (.insertIndex weights (x.2.filter groups) pl pw (rows.filterMap id)) s

/-! ### `update_index`, `delete_index` -/

/-- `cell in previously_merged`: the set has numbers in it, so a text is never one of them. -/
def inMerged (merged : List Nat) : Cell → Bool
  | .num q => merged.any fun i => decide ((i : ℚ) = q)
  | _ => false

/-- One row of `update_index` (`space.py` lines 913-957). -/
def updateIndexCells (rd : Reads) (merge : Bool) (cols header : List PyStr) (acc : UpdateAcc) (row : List Cell) : M UpdateAcc := do
  if Cell.text [] ∈ row then return acc
  else do
    let c ← liftE (dictAt header row idName)
    let s ← get
    match rd.record s c with
    | none =>
      if inMerged acc.merged c then throw (.valueError "merged with another record on a previous row")
      else return acc
    | some r => do
      let labels ← liftE (cols.mapM fun k => do labelOf (← dictAt header row k))
      let acc ← mergeConflict merge acc r (s.findByLabels labels)
      indexUpdate { r with labels := labels }
      return { acc with updated := true }

/-- `update_index` (`space.py` lines 890-988). -/
def updateIndexTable (rd : Reads) (t : Table) (columns : Option (List PyStr)) (merge : Bool) (s : Store) : Store × Except Err Unit :=
  let x := normalize t columns
  if idName ∉ x.2 then (s, .error (.valueError "column 'index_id' required"))
  else if ¬ (∀ c ∈ s.cols, c ∈ x.2) then (s, .error (.valueError "missing required columns"))
  else runTx (do
    let acc ← x.1.foldlM (updateIndexCells rd merge s.cols x.2) ⟨[], false⟩
    whenM (acc.merged ≠ [] ∨ acc.updated) refreshGranularity
    whenM (acc.merged ≠ []) afterMerge) s

/-- Do the labels in a row agree with those of a record: `any(row_dict[k] != v for …)` stops at the first difference
(`space.py` lines 1329, 1425, 1530). A cell that is no text differs. -/
def labelsAgree (get : PyStr → Option Cell) : List PyStr → List PyStr → Except Err Bool
  | c :: cols, l :: labels =>
    match get c with
    | none => .error (.keyError "no such column")
    | some x => if x = .text l then labelsAgree get cols labels else .ok false
  | _, _ => .ok true

/-- One row of `delete_index` (`space.py` lines 1030-1055). All labels are taken from the row before they are compared. -/
def deleteIndexCells (rd : Reads) (cols header : List PyStr) (d : Bool) (row : List Cell) : M Bool := do
  let s ← get
  match (dictGet header row idName).bind (rd.record s) with
  | none => return d
  | some r => do
    let labels ← liftE (cols.mapM (dictAt header row))
    if labels ≠ r.labels.map Cell.text then return d
    else do
      deleteIndexRecord r.id
      return true

/-- The table is an empty list. -/
def isEmptyList : Table → Bool
  | .seqs l => l.isEmpty
  | .dicts l => l.isEmpty

/-- `delete_index(data)` (`space.py` lines 1005-1112). -/
def deleteIndexTable (rd : Reads) (t : Table) (columns : Option (List PyStr)) (s : Store) : Store × Except Err Unit :=
  let x := normalize t columns
  if isEmptyList t then (s, .error (.typeError "expected data or keyword criteria"))
  else if idName ∉ x.2 then (s, .error (.valueError "column 'index_id' required"))
  else if ¬ (∀ c ∈ s.cols, c ∈ x.2) then (s, .error (.valueError "missing required columns"))
  else runTx (do
    let deleted ← x.1.foldlM (deleteIndexCells rd s.cols x.2) false
    whenM deleted afterDeleteIndex) s

/-! ### Weights -/

/-- `filter_by_label` with the labels that the row has (`space.py` lines 1334-1336; SQLite compares texts). -/
def matchesGiven (get : PyStr → Option Cell) : List PyStr → List PyStr → Bool
  | c :: cols, l :: labels =>
    (match get c with
      | none => true
      | some x => decide (x = .text l)) && matchesGiven get cols labels
  | _, _ => true

/-- The record of a row of `insert_weights` (`space.py` lines 1320-1341): by its id if the labels agree, else by the labels
that the row has. -/
def weightCellsRecord (rd : Reads) (s : Store) (cols : List PyStr) (get : PyStr → Option Cell) : Except Err (Option IndexRec) :=
  match get idName with
  | some i =>
    match rd.record s i with
    | none => .ok none
    | some r =>
      match labelsAgree get cols r.labels with
      | .ok same => .ok (if same then some r else none)
      | .error e => .error e
  | none => .ok (s.index.find? fun r => matchesGiven get cols r.labels)

/-- One row of `insert_weights` (`space.py` lines 1304-1357): the value is taken out of the row first. -/
def insertWeightCells (rd : Reads) (cols header : List PyStr) (value : PyStr) (group : Nat) (p : Policy) (inserted : Bool)
    (row : List Cell) : M Bool := do
  let c ← liftE (dictAt header row value)
  match rd.floatOf c with
  | none => return inserted
  | some v => do
    let s ← get
    match ← liftE (weightCellsRecord rd s cols fun k => if k = value then none else dictGet header row k) with
    | none => return inserted
    | some r =>
      if r.id = 0 then return inserted
      else fun s =>
        match weightAddOrResolve group r.id v p s with
        | .ok (.inserted, s') => .ok (true, s')
        | .ok (_, s') => .ok (inserted, s')
        | .error _ => .error (.exception "this error occured on record")

/-- `insert_weights` (`space.py` lines 1270-1358). -/
def insertWeightsTable (rd : Reads) (name : PyStr) (t : Table) (columns : Option (List PyStr)) (value : Option PyStr) (p : Policy)
    (s : Store) : Store × Except Err Unit :=
  let x := normalize t columns
  if p = .other then (s, .error (.valueError "on_conflict"))
  else if ¬ (∀ c ∈ s.cols, c ∈ x.2) then (s, .error (.valueError "missing required columns"))
  else runTx (do
    let g ← wgroupGetOrAdd name
    let col := if value.getD [] = [] then name else value.getD []
    let inserted ← x.1.foldlM (insertWeightCells rd s.cols x.2 col g.id p) false
    afterWeights g inserted) s

/-- One row of `update_weights` (`space.py` lines 1416-1449). (SQLite would store a text that is no number as it is; this is
left out.) -/
def updateWeightCells (rd : Reads) (cols header : List PyStr) (value : PyStr) (group : Nat) (inserted : Bool) (row : List Cell) :
    M Bool := do
  let i ← liftE (dictAt header row idName)
  let s ← get
  match rd.record s i with
  | none => return inserted
  | some r => do
    let same ← liftE (labelsAgree (dictGet header row) cols r.labels)
    if !same then return inserted
    else do
      let c ← liftE (dictAt header row value)
      match rd.sqlOf c with
      | none => throw (.typeError "no number")
      | some v =>
        match s.findWeight group r.id with
        | some w => do weightSetValue w.id v; return inserted
        | none => do weightAdd group r.id v; return true

/-- `update_weights` (`space.py` lines 1391-1453). -/
def updateWeightsTable (rd : Reads) (name : PyStr) (t : Table) (columns : Option (List PyStr)) (value : Option PyStr) (s : Store) :
    Store × Except Err Unit :=
  let x := normalize t columns
  let col := if value.getD [] = [] then name else value.getD []
  if idName ∉ x.2 then (s, .error (.valueError "column 'index_id' required"))
  else if col ∉ x.2 then (s, .error (.valueError "no such column"))
  else if ¬ (∀ c ∈ s.cols, c ∈ x.2) then (s, .error (.valueError "missing required columns"))
  else runTx (do
    let g ← wgroupGetByName name
    let inserted ← x.1.foldlM (updateWeightCells rd s.cols x.2 col g.id) false
    afterWeights g inserted) s

/-! ### `insert_quantities2` -/

/-- `if row_dict[k]`: an attribute. (A number would be stored as a number; this is left out.) -/
def attrOf : Cell → Except Err PyStr
  | .text t => .ok t
  | .none => .ok []
  | .num _ => .error (.typeError "number instead of text")

/-- The cell of the domain, if there is one (`space.py` line 2341). Something else than a text is no domain. -/
def domainOf : Option Cell → Except Err (Option PyStr)
  | none => .ok none
  | some (.text t) => .ok (some t)
  | some _ => .error (.valueError "domain")

/-- A row of `insert_quantities2` before anything is stored (`space.py` lines 2337-2348, 2393). (All rows are read before the
first is stored, see `indexRow`. Under `ignore` the program also ignores a value that is no number if there already is a
quantity; this is left out.) -/
def quantRow (rd : Reads) (cols attrs : List PyStr) (value : PyStr) (header : List PyStr) (row : List Cell) :
    Except Err QuantRow := do
  let domain ← domainOf (dictGet header row domainName)
  let as ← attrs.mapM fun k => do .ok (k, ← attrOf (← dictAt header row k))
  let labels ← cols.mapM fun k => do labelOf (← dictAt header row k)
  if as.all fun kv => decide (kv.2 = []) then .ok ⟨domain, labels, as, 0⟩
  else do
    let c ← dictAt header row value
    match rd.sqlOf c with
    | some v => .ok ⟨domain, labels, as, v⟩
    | none => .error (.integrityError "CHECK constraint failed")

/-- `insert_quantities2` (`space.py` lines 2295-2427). -/
def insertQuantitiesTable (rd : Reads) (value : PyStr) (t : Table) (columns : Option (List PyStr)) (allowLabel allowPartition : Bool)
    (p : Policy) (s : Store) : Store × Except Err Unit :=
  let x := normalize t columns
  if s.regAttrs.getD [] = [] then (s, .error (.toronError "no attributes registered"))
  else if ¬ (∀ c ∈ s.cols ++ [value], c ∈ x.2) then (s, .error (.valueError "missing required columns"))
  else
    match x.1.mapM (quantRow rd s.cols ((s.regAttrs.getD []).filter fun a => decide (a ∈ x.2)) value x.2) with
    | .error e => (s, .error e)
    | .ok rows => step (.insertQuantities2 allowLabel allowPartition p rows) s

end Toron.TableLoad

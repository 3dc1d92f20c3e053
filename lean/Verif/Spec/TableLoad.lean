/-
What a table says, whatever form it has: a cell for a column name in each row.
-/
import Verif.Model.TableLoad

namespace Toron.TableLoad

open Toron.Selectors (PyStr)
open Toron.Tabular (Cell DictRow Table)
open Toron.Space
open Toron.IndexCsv (idName)
open Toron.QuantCsv (domainName)

/-- A table: different column names, and rows with a cell for each column. -/
structure Proper (header : List PyStr) (rows : List (List Cell)) : Prop where
  names : header.Nodup
  nonempty : header ≠ []
  full : ∀ row ∈ rows, row.length = header.length

/-- The forms in which a table can be given: as rows after a header, as rows with the column names in the second argument,
as dictionaries (the first with its keys in the order of the columns, the others in any order), as dictionaries with column
names (in any order). -/
inductive Form : Table → Option (List PyStr) → List PyStr → List (List Cell) → Prop where
  | headed (header rows) : Form (.seqs (header.map Cell.text :: rows)) none header rows
  | named (header rows) : Form (.seqs rows) (some header) header rows
  | dicts (header row rows ds) (h : List.Forall₂ (fun d row => List.Perm d (header.zip row)) ds rows) :
      Form (.dicts (header.zip row :: ds)) none header (row :: rows)
  | dictsNamed (header rows ds) (h : List.Forall₂ (fun d row => List.Perm d (header.zip row)) ds rows) :
      Form (.dicts ds) (some header) header rows

/-- The row has this cell in the column of this name. -/
def Has (header : List PyStr) (row : List Cell) (name : PyStr) (c : Cell) : Prop :=
  ∃ k : Nat, header[k]? = some name ∧ row[k]? = some c

/-- The row has these labels. -/
def HasLabels (cols header : List PyStr) (row : List Cell) (labels : List PyStr) : Prop :=
  List.Forall₂ (fun c l => Has header row c (.text l)) cols labels

/-- A row for `insert_index`: the labels of all label columns, or no label columns; the id or an empty cell or no such column;
the weights, or empty cells, of the weight columns `wcols`. -/
structure SaysIndex (rd : Reads) (cols wcols header : List PyStr) (row : List Cell) (r : IndexRow) : Prop where
  labels : ∀ l, r.labels = some l → HasLabels cols header row l
  noLabels : r.labels = none → ∀ c ∈ cols, c ∉ header
  id : ∀ i, r.idv = some i → ∃ c, Has header row idName c ∧ c ≠ .text [] ∧ rd.intOf c = .ok i
  noId : r.idv = none → idName ∉ header ∨ Has header row idName (.text [])
  ws : List.Forall₂ (fun n w => ∃ c, Has header row n c ∧
    match w with
    | none => c = .none ∨ c = .text []
    | some v => c ≠ .none ∧ c ≠ .text [] ∧ rd.floatOf c = some v) wcols r.ws

/-- A row with an id and labels. -/
structure SaysRecord (rd : Reads) (cols header : List PyStr) (row : List Cell) (r : Nat × List PyStr) : Prop where
  id : ∃ c, Has header row idName c ∧ rd.sqlOf c = some (r.1 : ℚ)
  labels : HasLabels cols header row r.2

/-- A row for `insert_weights`. -/
structure SaysWeight (rd : Reads) (cols header : List PyStr) (value : PyStr) (row : List Cell) (r : WeightRow) : Prop where
  value : ∃ c, Has header row value c ∧ rd.floatOf c = r.value
  id : ∀ i, r.idv = some i → ∃ c, Has header row idName c ∧ rd.sqlOf c = some (i : ℚ)
  noId : r.idv = none → idName ∉ header
  labels : HasLabels cols header row r.labels

/-- A row for `insert_quantities2`: the domain if there is such a column, the labels, the attributes of those registered
attributes that have a column (`None` stands for an empty text), the value. -/
structure SaysQuantity (rd : Reads) (cols reg header : List PyStr) (value : PyStr) (row : List Cell) (r : QuantRow) : Prop where
  domain : ∀ d, r.domain = some d → Has header row domainName (.text d)
  noDomain : r.domain = none → domainName ∉ header
  labels : HasLabels cols header row r.labels
  attrs : List.Forall₂ (fun k kv => kv.1 = k ∧ (Has header row k (.text kv.2) ∨ (kv.2 = [] ∧ Has header row k .none)))
    (reg.filter fun a => decide (a ∈ header)) r.attrs
  value : ∃ c, Has header row value c ∧ rd.sqlOf c = some r.value

end Toron.TableLoad

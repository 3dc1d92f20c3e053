/-
Model of `NodeReader` and `pivot_reader` (`src/toron/reader.py`), of `make_get_link_id_func`
(`src/toron/data_service.py` lines 501-550) and of the argument `sum_by_attrs` of a dataspace call
(`src/toron/space.py` lines 2941-2972).
-/
import Verif.Model.Store.Read

namespace Toron.Space

open Toron.Selectors (PyStr Sel CaseMap getGreatestUniqueSpecificity)

/-- A row of `quant_data` joined with `attr_data` (`reader.py` lines 70-78, 102-108): the attributes stand
for their id (the JSON text with sorted keys is unique in `attr_data`). `value` may be NULL. -/
structure ReaderRow where
  index : Nat
  attrs : Attrs
  value : Option ℚ
  deriving DecidableEq, Repr

/-- The contents of a `NodeReader`: `attr_data` in order of insertion, `quant_data`, `_attr_keys`. The file or
the connection that holds the tables, and `_node`, are not part of it. -/
structure Reader where
  attrData : List Attrs
  rows : List ReaderRow
  keys : List PyStr
  deriving DecidableEq, Repr

/-- `NodeReader.__init__` (`reader.py` lines 58-141). Strings are ordered by code points. -/
def Reader.new (data : List (Nat × Attrs × Option ℚ)) : Reader where
  attrData := distinct (data.map fun d => canonAttrs d.2.1)
  rows := data.map fun d => ⟨d.1, canonAttrs d.2.1, d.2.2⟩
  keys := sortedBy (fun a b => decide (a.map Char.toNat ≤ b.map Char.toNat))
    (distinct (data.flatMap fun d => d.2.1.map (·.1)))

/-- `filter_attrs` (`space.py` lines 2948-2956): with `sum_by_attrs` given, only these attributes and the
domain are kept. An empty list is treated as not given. -/
def Store.keepAttrs (s : Store) (names : List PyStr) (a : Attrs) : Attrs :=
  if names.isEmpty then a
  else a.filter fun kv => decide (kv.1 ∈ names) || (s.getDomain != [] && kv.1 == "domain".toList)

/-- `space(*selectors, quantize=…, sum_by_attrs=…)` (`space.py` lines 2884-2972). -/
def Store.reader (s : Store) (cm : CaseMap) (selectors : List Sel) (quantize : Bool) (sumBy : List PyStr) :
    Except Err Reader := do
  let data ← s.call cm selectors quantize
  .ok (Reader.new (data.map fun d => (d.1, s.keepAttrs sumBy d.2.1, some d.2.2)))

/-- `SUM` of SQLite: NULLs are ignored, NULL if there is nothing else. -/
def sqlSum (vs : List (Option ℚ)) : Option ℚ :=
  match vs.filterMap id with
  | [] => none
  | xs => some xs.sum

/-- `AVG` of SQLite. -/
def sqlAvg (vs : List (Option ℚ)) : Option ℚ :=
  match vs.filterMap id with
  | [] => none
  | xs => some (xs.sum / xs.length)

/-- `index_repo.get(index_id).labels` (`repositories.py` lines 92-103). -/
def Store.labelsOf (s : Store) (i : Nat) : Except Err (List PyStr) :=
  match s.index.find? (fun r => r.id == i) with
  | some r => .ok r.labels
  | none => .error (.keyError "no index with id")

/-- `dict.get`. -/
def attrGet (a : Attrs) (k : PyStr) : Option PyStr := (a.find? fun kv => kv.1 == k).map (·.2)

/-- The values of a group (`GROUP BY index_id, attributes`). -/
def Reader.valuesAt (r : Reader) (k : Nat × Attrs) : List (Option ℚ) :=
  (r.rows.filter fun x => x.index == k.1 && x.attrs == k.2).map (·.value)

/-- `_generate_reader_output` (`reader.py` lines 247-265). The order in which SQLite returns the groups is not
modelled: order of first occurrence. A row of the output: labels, attribute cells, value. -/
def Reader.output (r : Reader) (s : Store) : Except Err (List (List PyStr × List (Option PyStr) × Option ℚ)) :=
  flatMapE (fun k => do
    let labels ← s.labelsOf k.1
    .ok [(labels, r.keys.map (attrGet k.2), sqlSum (r.valuesAt k))])
    (distinct (r.rows.map fun x => (x.index, x.attrs)))

/-- `make_get_link_id_func` (`data_service.py` lines 501-535): the default link and the selectors of the
others. -/
def Store.linkChooser (s : Store) (ref : PyStr) (hash : List Int) :
    Except Err (Nat × List (Nat × Option (List Sel))) :=
  let found := findLinksByRef s.links ref
  if found.isEmpty then .error (.runtimeError "no link found connecting nodes")
  else
    let current := found.filter fun l => l.otherHash == some hash
    if current.isEmpty then .error (.runtimeError "links are out of date, need to relink")
    else match current.find? (fun l => l.isDefault) with
      | none => .error (.runtimeError "no default link found for node")
      | some d =>
        .ok (d.id, (current.filter fun l => l.complete && !l.selectors.isEmpty).map fun l =>
          (l.id, some l.selectors))

/-- `quant_value * rel.proportion` (`reader.py` line 334); a NULL is a `TypeError`. -/
def scaleBy (v : Option ℚ) (m : Mapping) : Except Err (List (Nat × ℚ)) :=
  match v, m.prop with
  | some v, some p => .ok [(m.index, v * p)]
  | _, _ => .error (.typeError "unsupported operand type(s) for *")

/-- One row of `quant_data` (`reader.py` lines 318-343). -/
def Store.translateRow (trg : Store) (link : Nat) (quantize : Bool) (row : ReaderRow) :
    Except Err (List ReaderRow) :=
  if row.index = 0 then .ok [row]
  else do
    let items ← flatMapE (scaleBy row.value) (trg.findMaps link row.index)
    let items ←
      if quantize then
        match row.value with
        | some v => quantizeValues items v
        | none => .error (.typeError "unsupported operand type(s) for -")
      else .ok items
    .ok (items.map fun x => ⟨x.1, row.attrs, some x.2⟩)

/-- The `link_id` of an attribute record (`reader.py` lines 289-297): the second component of the pair. -/
def lookupLink (links : List (Attrs × Nat)) (a : Attrs) : Option Nat :=
  (links.find? fun x => x.1 == a).map (·.2)

/-- `NodeReader.translate` (`reader.py` lines 267-350). `src` is the reader's current dataspace; an
exception leaves the reader as it was (`_managed_connection`, lines 233-245, rolls back). -/
def Reader.translate (r : Reader) (cm : CaseMap) (src trg : Store) (quantize : Bool) : Except Err Reader := do
  let chooser ← trg.linkChooser src.uid (src.indexHash.map Int.ofNat)
  let links ← flatMapE (fun a => do
    let l ← getGreatestUniqueSpecificity cm a chooser.2 chooser.1
    .ok [(a, l)]) r.attrData
  let rows ← flatMapE (fun row : ReaderRow =>
    match lookupLink links row.attrs with
    | some l => trg.translateRow l quantize row
    | none => .ok []) r.rows
  .ok { r with rows := rows }

/-- A header of a pivoted column. -/
inductive Header where
  | str (s : PyStr)
  | tuple (parts : List PyStr)
  deriving DecidableEq, Repr

/-- `format_column` (`reader.py` lines 366-391). -/
def formatColumn (parts : List PyStr) : Header :=
  match (parts.reverse.dropWhile List.isEmpty).reverse with
  | [x] => .str x
  | xs => .tuple xs

/-- `pivot_attrs` (`reader.py` line 427). -/
def pivotAttrs (columns : List PyStr) (a : Attrs) : List PyStr := columns.map fun c => (attrGet a c).getD []

/-- `temp.pivot_temp` (`reader.py` lines 424-435): attribute records with their pivot values; records whose
pivot values are all empty are left out. -/
def Reader.pivotTemp (r : Reader) (columns : List PyStr) : List (Attrs × List PyStr) :=
  (r.attrData.map fun a => (a, pivotAttrs columns a)).filter fun x => x.2.any fun v => !v.isEmpty

/-- The distinct pivot values (`reader.py` lines 437-443). They are ordered by their JSON text, which is not
modelled: order of first occurrence. -/
def Reader.pivotColumns (r : Reader) (columns : List PyStr) : List (List PyStr) :=
  distinct ((r.pivotTemp columns).map (·.2))

/-- The header row (`reader.py` lines 445-447): label columns, then pivoted columns. -/
def Reader.pivotHeader (r : Reader) (s : Store) (columns : List PyStr) : List Header :=
  s.cols.map Header.str ++ (r.pivotColumns columns).map formatColumn

/-- The sums per attribute record at a record with the pivot value `c` (`reader.py` lines 453-461). -/
def Reader.pivotParts (r : Reader) (columns : List PyStr) (i : Nat) (c : List PyStr) : List (Option ℚ) :=
  (((r.pivotTemp columns).filter fun x => x.2 == c).filter fun x =>
    r.rows.any fun y => y.index == i && y.attrs == x.1).map fun x => sqlSum (r.valuesAt (i, x.1))

/-- The indexes with at least one pivoted row, in order (`ORDER BY index_id`, line 463). -/
def Reader.pivotIndexes (r : Reader) (columns : List PyStr) : List Nat :=
  sortedBy (fun a b => decide (a ≤ b)) (distinct ((r.rows.filter fun y =>
    decide (y.attrs ∈ (r.pivotTemp columns).map (·.1))).map (·.index)))

/-- The rows after the header (`reader.py` lines 449-476), with the aggregate function `agg` (`SUM` or
`AVG`). A missing cell is `None`. -/
def Reader.pivotRows (r : Reader) (s : Store) (agg : List (Option ℚ) → Option ℚ) (columns : List PyStr) :
    Except Err (List (List PyStr × List (Option ℚ))) :=
  flatMapE (fun i => do
    let labels ← s.labelsOf i
    .ok [(labels, (r.pivotColumns columns).map fun c => agg (r.pivotParts columns i c))])
    (r.pivotIndexes columns)

end Toron.Space

/-
Model of the legacy node class `xNode` (`src/toron/xnode.py`), which the package still exports, with the parts of
its data access layer it reaches (`src/toron/_dal.py`) and its tables (`src/toron/_schema.py` lines 81-176).

Rows are listed in rowid order, floating-point values are rationals and a hash is represented by the sequence that
was hashed, as in the model of the current class. Every method runs in one savepoint that is rolled back when an
exception is raised (`_schema.py` lines 927-957), so a method is a function from a node to an exception or a new
node. SQLite is taken to be 3.35 or newer. Edges cannot be made through `xNode`, so the tables `edge` and
`relation` stay empty and the statements about them (for example `_dal.py` lines 722-800) have no effect and are
left out.
-/
import Verif.Model.Store.Space
import Verif.Model.Text
import Verif.Model.IndexCode

namespace Toron.Legacy

open Toron.Selectors (PyStr)
open Toron.Space (IndexRec LocRec StructRec Weight AGroup Quant Attrs nextId asciiLower bitsOf defOf)
open Toron.Partitions

/-- A row of `weighting` (`_schema.py` lines 148-155). `selectors` are kept as texts. -/
structure Weighting where
  id : Nat
  name : PyStr
  selectors : List PyStr
  complete : Bool
  deriving DecidableEq, Repr

/-- The contents of a legacy node. The last three fields are entries of `property`; `seq` is `sqlite_sequence`. -/
structure Node where
  cols : List PyStr
  index : List IndexRec
  seq : Nat
  locs : List LocRec
  structs : List StructRec
  weightings : List Weighting
  weights : List Weight
  attrs : List AGroup
  quants : List Quant
  partDefs : Option (List (Finset PyStr))
  indexHash : Option (List Nat)
  default : Option PyStr
  deriving DecidableEq

/-- A new node (`_dal.py` lines 172-204, `_schema.py` lines 81-176). -/
def Node.new : Node where
  cols := []
  index := [⟨0, []⟩]
  seq := 0
  locs := []
  structs := []
  weightings := []
  weights := []
  attrs := []
  quants := []
  partDefs := none
  indexHash := none
  default := none

/-! ### Names -/

/-- `value.replace('""', '"')` (`_schema.py` line 241). -/
def undouble : PyStr → PyStr
  | '"' :: '"' :: cs => '"' :: undouble cs
  | c :: cs => c :: undouble cs
  | [] => []

/-- `' '.join(words)`. -/
def blankJoin : List PyStr → PyStr
  | [] => []
  | [w] => w
  | w :: ws => w ++ [' '] ++ blankJoin ws

/-- `normalize_identifier` (`_schema.py` lines 215-246) without the quotes it puts around the name. -/
def normName (value : PyStr) : Except Err PyStr :=
  if '\x00' ∈ value then .error (.valueError "NUL not allowed")
  else if value.head? = some '"' ∧ value.getLast? = some '"' then
    .ok (undouble ((value.drop 1).dropLast))
  else .ok (blankJoin (Selectors.splitWords [] value))

/-- The words SQLite does not take for an identifier unless quoted (in lower case). -/
def sqlWords : List PyStr :=
  ["add", "all", "alter", "and", "as", "autoincrement", "between", "case", "check", "collate", "commit",
   "constraint", "create", "default", "deferrable", "delete", "distinct", "drop", "else", "escape", "exists",
   "foreign", "from", "group", "having", "in", "index", "insert", "intersect", "into", "is", "isnull", "join",
   "limit", "not", "nothing", "notnull", "null", "on", "or", "order", "primary", "references", "returning",
   "select", "set", "table", "then", "to", "transaction", "union", "unique", "update", "using", "values", "when",
   "where"].map String.toList

/-- Whether a name can be written in SQL without quotes. -/
def plainName (c : PyStr) : Bool :=
  let letter := fun ch : Char => ch.isAlpha || ch == '_' || decide (127 < ch.toNat)
  match c with
  | [] => false
  | a :: as => letter a && as.all (fun ch => letter ch || ch.isDigit) && !(sqlWords.contains (asciiLower c))

/-- Names that SQLite takes for an existing column of one of the three label tables. -/
def sqlNames (cols : List PyStr) : List PyStr :=
  (cols ++ ["index_id", "_location_id", "_structure_id", "_granularity"].map String.toList).map asciiLower

/-! ### Structure -/

/-- The labels of the records other than the undefined one, restricted to `d`. -/
def Node.projected (n : Node) (d : Finset PyStr) : List (List PyStr) :=
  (n.index.filter fun r => r.id != 0).map fun r =>
    ((n.cols.zip r.labels).filter fun cl => cl.1 ∈ d).map (·.2)

/-- `_refresh_granularity` (`_dal.py` lines 2335-2434). Unlike in the current class no columns means one block. -/
def Node.refreshGranularity (n : Node) : Node :=
  { n with structs := n.structs.map fun r =>
      { r with gran := calculateGranularitySql false (n.projected (defOf n.cols r.bits)) } }

/-- One `INSERT INTO structure` (`_dal.py` lines 2313-2319). The UNIQUE index exists once there are columns. -/
def Node.insertStruct (n : Node) (d : Finset PyStr) : Except Err Node :=
  if n.cols ≠ [] ∧ bitsOf n.cols d ∈ n.structs.map (·.bits) then .error (.integrityError "structure: UNIQUE")
  else .ok { n with structs := n.structs ++ [⟨nextId (n.structs.map (·.id)), none, bitsOf n.cols d⟩] }

/-- `_set_data_structure` (`_dal.py` lines 2298-2321). -/
def Node.setStructure (n : Node) (st : List (Finset PyStr)) : Except Err Node := do
  let n ← st.foldlM Node.insertStruct { n with structs := [] }
  .ok n.refreshGranularity

/-- `_update_categories_and_structure` (`_dal.py` lines 2436-2476). -/
def Node.updateCategories (n : Node) (cats : List (Finset PyStr)) (minimize : Bool) : Except Err Node :=
  let cats := if cats = [] then n.partDefs.getD [] else cats
  let cats := if minimize then findMinimalGeneratingSet [cats, [n.cols.toFinset]] else cats
  { n with partDefs := some cats }.setStructure (makeStructure cats)

/-- `add_partition_definitions` (`_dal.py` lines 2506-2524); the warning is not modelled. -/
def Node.addPartitionDefinitions (defs : List (Finset PyStr)) (n : Node) : Except Err Node :=
  n.updateCategories (findMinimalGeneratingSet [n.partDefs.getD [], defs, [n.cols.toFinset]]) false

/-- `remove_partition_definitions` (`_dal.py` lines 2526-2556); the warnings are not modelled. -/
def Node.removePartitionDefinitions (defs : List (Finset PyStr)) (n : Node) : Except Err Node :=
  let defs := defs.erase n.cols.toFinset
  let keep := (n.partDefs.getD []).filter fun d => d ∉ defs
  n.updateCategories (findMinimalGeneratingSet [keep, [n.cols.toFinset]]) false

/-! ### Columns -/

/-- `CREATE UNIQUE INDEX` on the three label tables (`_schema.py` lines 290-297). -/
def Node.checkUnique (n : Node) : Except Err Unit :=
  if (n.index.map (·.labels)).Nodup ∧ (n.locs.map (·.labels)).Nodup ∧ (n.structs.map (·.bits)).Nodup then .ok ()
  else .error (.integrityError "UNIQUE")

/-- `ALTER TABLE … ADD COLUMN` on the three label tables (`_dal.py` lines 510-515) with the defaults `'-'`, `''` and
`0` (`_schema.py` lines 310-322). -/
def Node.addColumn (n : Node) (c : PyStr) : Except Err Node :=
  if asciiLower c ∈ sqlNames n.cols then .error (.operationalError "duplicate column name")
  else .ok { n with
    cols := n.cols ++ [c],
    index := n.index.map (fun r => { r with labels := r.labels ++ [['-']] }),
    locs := n.locs.map (fun r => { r with labels := r.labels ++ [[]] }),
    structs := n.structs.map (fun r => { r with bits := r.bits ++ [false] }) }

/-- `_add_index_columns_make_sql` (`_dal.py` lines 480-520), executed. The existing names are compared after having
been normalized again. -/
def Node.addColumns (names : List PyStr) (n : Node) : Except Err Node := do
  let names ← names.mapM normName
  if names.any fun c => c ∈ (["index_id", "_location_id", "_structure_id"].map String.toList) then
    .error (.valueError "column name not allowed")
  else do
    let current ← n.cols.mapM normName
    let new := names.filter fun c => decide (c ∉ current)
    if new = [] then .ok n
    else if ¬ new.Nodup then .error (.valueError "duplicate column name")
    else do
      let n ← new.foldlM Node.addColumn n
      n.checkUnique
      .ok n

/-- `xNode.add_index_columns` (`xnode.py` lines 43-68) with `set_data` (`_dal.py` lines 2478-2504). The structure that is
written last is made from the names as they were given. -/
def Node.addIndexColumns (names : List PyStr) (n : Node) : Except Err Node := do
  let minimized := findMinimalGeneratingSet [n.partDefs.getD [], [names.toFinset ∪ n.cols.toFinset]]
  let n ← n.addColumns names
  let n ← n.updateCategories [] true
  n.setStructure (makeStructure minimized)

/-- One `ALTER TABLE … RENAME COLUMN` (`_dal.py` lines 561-566). -/
def Node.renameColumn (n : Node) (p : PyStr × PyStr) : Except Err Node :=
  if ¬ n.cols.any (fun c => asciiLower c == asciiLower p.1) then .error (.operationalError "no such column")
  else if asciiLower p.2 ∈ sqlNames (n.cols.filter fun c => asciiLower c ≠ asciiLower p.1) then
    .error (.operationalError "duplicate column name")
  else .ok { n with cols := n.cols.map fun c => if asciiLower c = asciiLower p.1 then p.2 else c }

/-- `rename_index_columns` (`_dal.py` lines 522-577). `mapper` is the function given, or `mapper.get(col, col)` for a
dictionary. Only the columns of the tables are renamed: the property `partition_definitions` keeps the old names. -/
def Node.renameIndexColumns (mapper : PyStr → PyStr) (n : Node) : Except Err Node := do
  let old ← n.cols.mapM normName
  let new ← (n.cols.map mapper).mapM normName
  if ¬ new.Nodup then .error (.valueError "column name collisions")
  else ((old.zip new).filter fun p => decide (p.1 ≠ p.2)).foldlM Node.renameColumn n

/-! ### Index records -/

/-- `_refresh_index_hash` (`_dal.py` lines 1188-1202). No records, no hash (`_utils.py` lines 455-459). -/
def Node.refreshIndexHash (n : Node) : Node :=
  let ids := (n.index.map (·.id)).filter fun i => decide (0 < i)
  { n with indexHash := if ids = [] then none else some ids }

/-- One row of the `executemany` (`_dal.py` lines 1234-1236, 1251). -/
def Node.insertIndex (header : List PyStr) (n : Node) (row : List PyStr) : Except Err Node :=
  let labels := n.cols.map fun c => ((header.zip row).lookup c).getD ['-']
  if row.length < header.length then .error (.exception "incorrect number of bindings")
  else if [] ∈ labels then .error (.integrityError "node_index: CHECK")
  else if labels ∈ n.index.map (·.labels) then .error (.integrityError "node_index: UNIQUE")
  else .ok { n with index := n.index ++ [⟨n.seq + 1, labels⟩], seq := n.seq + 1 }

/-- `add_index_records` (`_dal.py` lines 1210-1256). `header` are the columns of the table, `rows` its rows, as texts.
A header that repeats a name is not modelled. -/
def Node.addIndexRecords (header : List PyStr) (rows : List (List PyStr)) (n : Node) : Except Err Node := do
  let sel := header.map fun c => decide (c ∈ "index_id".toList :: n.cols)
  let header' := Text.compress header sel
  if "index_id".toList ∈ header' then .error (.operationalError "invalid column name")
  else if header' = [] then .error (.operationalError "syntax error")
  else do
    let n ← rows.foldlM (fun n row => n.insertIndex header' (Text.compress row sel)) n
    .ok n.refreshGranularity.refreshIndexHash

/-! ### Weights -/

/-- A row of a table of weights in parsed form: the labels of the columns that are present, the number in a column
`index_id` if there is one, and the weight. -/
structure WeightRow where
  labels : List PyStr
  id : Option Nat
  value : Option ℚ
  deriving DecidableEq, Repr

/-- The records matched by a row (`_dal.py` lines 1374-1384). -/
def Node.weightMatches (n : Node) (header : List PyStr) (row : WeightRow) : List IndexRec :=
  n.index.filter fun r => decide (0 < r.id) &&
    (header.zip row.labels).all (fun cl => (n.cols.zip r.labels).lookup cl.1 == some cl.2) &&
    (match row.id with | some i => r.id == i | none => true)

/-- One row of the `executemany` (`_dal.py` lines 1376-1385, 1440-1442): inserted if exactly one record matches. -/
def Node.insertWeight (w : Nat) (header : List PyStr) (n : Node) (row : WeightRow) : Except Err Node :=
  match row.value with
  | none => .ok n
  | some v =>
    match n.weightMatches header row with
    | [r] =>
      if n.weights.any (fun x => x.group == w && x.index == r.id) then .error (.integrityError "weight: UNIQUE")
      else .ok { n with weights := n.weights ++ [⟨nextId (n.weights.map (·.id)), w, r.id, v⟩] }
    | _ => .ok n

/-- The number of records other than the undefined one. -/
def Node.indexCount (n : Node) : Nat := (n.index.filter fun r => decide (0 < r.id)).length

/-- The number of weights of a weighting. -/
def Node.weightCount (n : Node) (w : Nat) : Nat := (n.weights.filter fun x => x.group == w).length

/-- `_add_weights_set_is_complete` (`_dal.py` lines 1387-1401). -/
def Node.setComplete (n : Node) (w : Nat) : Node :=
  { n with weightings := n.weightings.map fun x =>
      if x.id = w then { x with complete := n.weightCount w == n.indexCount } else x }

/-- `add_weights` (`_dal.py` lines 1335-1456). `header` are the label columns that are present, `hasId` tells whether there
is a column `index_id`; without either the SQL is malformed. -/
def Node.addWeights (header : List PyStr) (hasId : Bool) (rows : List WeightRow) (name : PyStr) (selectors : List PyStr)
    (n : Node) : Except Err Node := do
  let w := nextId (n.weightings.map (·.id))
  let header' := header.filter fun c => decide (c ∈ n.cols)
  let sel := header.map fun c => decide (c ∈ n.cols)
  if name ∈ n.weightings.map (·.name) then .error (.integrityError "weighting: UNIQUE")
  else if header' = [] ∧ ¬ hasId then .error (.operationalError "syntax error")
  else do
    let n := { n with weightings := n.weightings ++ [(⟨w, name, selectors, false⟩ : Weighting)] }
    let n ← rows.foldlM
      (fun n row => n.insertWeight w header' { row with labels := Text.compress row.labels sel }) n
    let n := n.setComplete w
    .ok (if n.weightings.length = 1 then { n with default := some name } else n)

/-! ### Quantities -/

/-- A row of a table of quantities in parsed form: the label columns that are present and not empty, whether there is a
value column, the attributes that are not empty (sorted by key), the value if not empty. -/
structure QuantRow where
  labels : List (PyStr × PyStr)
  hasValue : Bool
  attrs : Attrs
  value : Option ℚ
  deriving DecidableEq, Repr

/-- The labels of a location (`_dal.py` lines 1659-1661 and 1516). -/
def Node.locLabels (n : Node) (row : QuantRow) : List PyStr :=
  n.cols.map fun c => IndexCode.strip ((row.labels.lookup c).getD [])

/-- `_add_quantities_get_location_id` (`_dal.py` lines 1505-1540). -/
def Node.getLocation (n : Node) (labels : List PyStr) : Except Err (Nat × Node) :=
  if labels = [] then .error (.operationalError "syntax error")
  else match n.locs.filter fun l => l.labels == labels with
    | [] =>
      let id := nextId (n.locs.map (·.id))
      .ok (id, { n with locs := n.locs ++ [(⟨id, labels⟩ : LocRec)] })
    | [l] => .ok (l.id, n)
    | _ => .error (.runtimeError "multiple location ids")

/-- `_add_quantities_get_attribute_id` (`_dal.py` lines 1542-1566). -/
def Node.getAttribute (n : Node) (attrs : Attrs) : Nat × Node :=
  match n.attrs.find? fun a => a.attrs == attrs with
  | some a => (a.id, n)
  | none =>
    let id := nextId (n.attrs.map (·.id))
    (id, { n with attrs := n.attrs ++ [(⟨id, attrs⟩ : AGroup)] })

/-- One row (`_dal.py` lines 1667-1690). (Consecutive rows of one location are grouped, which only saves looking up the
location again.) The location is made even if the row is then skipped. -/
def Node.addQuantity (n : Node) (row : QuantRow) : Except Err Node := do
  let (loc, n) ← n.getLocation (n.locLabels row)
  if !row.hasValue then .ok n
  else if row.attrs = [] then .ok n
  else match row.value with
    | none => .ok n
    | some v =>
      let (ag, n) := n.getAttribute row.attrs
      .ok { n with quants := n.quants ++ [(⟨nextId (n.quants.map fun q => q.id), loc, ag, v⟩ : Quant)] }

/-- `add_quantities` (`_dal.py` lines 1592-1696); the warning is not modelled. -/
def Node.addQuantities (rows : List QuantRow) (n : Node) : Except Err Node := rows.foldlM Node.addQuantity n

end Toron.Legacy

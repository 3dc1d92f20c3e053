/-
Model of the removal of index columns from a legacy node, with the merging of records that can no longer be told apart
(`src/toron/_dal.py` lines 579-1186).
-/
import Verif.Model.Legacy.Node

namespace Toron.Legacy

open Toron.Selectors (PyStr)
open Toron.Space (IndexRec LocRec StructRec Weight AGroup Quant Attrs nextId asciiLower bitsOf defOf keepCols)
open Toron.Partitions

/-- A row of `weight` or `quantity`: its id, the weighting or attribute it belongs to, the index record or location it
belongs to, and its value. The statements on the two tables (`_dal.py` lines 634-716 and 886-968) are the same up to
names. -/
structure Amount where
  id : Nat
  key : Nat
  at_ : Nat
  value : ℚ
  deriving DecidableEq, Repr

/-- The temporary tables `old_to_new_index_id` and `old_to_new_location_id` (`_dal.py` lines 620-629, 866-877): for each
record whose remaining labels are shared by several records, the smallest id among these. -/
def oldToNew (recs : List (Nat × List PyStr)) : List (Nat × Nat) :=
  recs.filterMap fun r =>
    let same := (recs.filter fun x => x.2 == r.2).map (·.1)
    if 1 < same.length then some (r.1, same.foldl min r.1) else none

/-- The pairs `MissingIDs` (`_dal.py` lines 637-646): sums that have no row yet on the record that is kept. `EXCEPT` sorts
its result. -/
def missing (m : List (Nat × Nat)) (rows : List Amount) : List (Nat × Nat) :=
  sortedBy (fun a b => decide (a.1 < b.1) || (decide (a.1 = b.1) && decide (a.2 ≤ b.2)))
    ((distinct (rows.filterMap fun r => (m.lookup r.at_).map fun new => (r.key, new))).filter fun p =>
      !(rows.any fun r => r.key == p.1 && r.at_ == p.2))

/-- The INSERT of rows with value 0 (`_dal.py` lines 647-649). -/
def addMissing (rows : List Amount) (ps : List (Nat × Nat)) : List Amount :=
  ps.foldl (fun rows p => rows ++ [⟨nextId (rows.map (·.id)), p.1, p.2, 0⟩]) rows

/-- The sum for a key and a record that is kept (`_dal.py` lines 658-665). -/
def summed (m : List (Nat × Nat)) (rows : List Amount) (key new : Nat) : ℚ :=
  ((rows.filter fun r => r.key == key && m.lookup r.at_ == some new).map (·.value)).sum

/-- The UPDATE that writes the sums (`_dal.py` lines 655-668): every row with the key and the record gets the sum. -/
def writeSums (m : List (Nat × Nat)) (rows : List Amount) : List Amount :=
  rows.map fun r =>
    if rows.any fun x => x.key == r.key && m.lookup x.at_ == some r.at_ then
      { r with value := summed m rows r.key r.at_ }
    else r

/-- Whether a record is merged into another one. -/
def goes (m : List (Nat × Nat)) (i : Nat) : Bool := m.any fun p => p.1 == i && p.1 != p.2

/-- The statements that merge rows of `weight` or `quantity` (`_dal.py` lines 634-703, 886-957). -/
def mergeAmounts (m : List (Nat × Nat)) (rows : List Amount) : List Amount :=
  (writeSums m (addMissing rows (missing m rows))).filter fun r => !(goes m r.at_)

/-- A weight as an amount. -/
def ofWeight (w : Weight) : Amount := ⟨w.id, w.group, w.index, w.value⟩

/-- And back. -/
def toWeight (a : Amount) : Weight := ⟨a.id, a.key, a.at_, a.value⟩

/-- A quantity as an amount. -/
def ofQuant (q : Quant) : Amount := ⟨q.id, q.ag, q.loc, q.value⟩

/-- And back. -/
def toQuant (a : Amount) : Quant := ⟨a.id, a.at_, a.key, a.value⟩

/-- The update of `is_complete` (`_dal.py` lines 803-831): of the weightings that are not complete and have weights. -/
def Node.recheckComplete (n : Node) : Node :=
  { n with weightings := n.weightings.map fun w =>
      if !w.complete && decide (0 < n.weightCount w.id) then
        { w with complete := n.weightCount w.id == n.indexCount }
      else w }

/-- `_coarsen_records_make_sql` (`_dal.py` lines 605-978), executed. A weight on the undefined record is refused by the
CHECK of the table (`_schema.py` line 160). -/
def Node.coarsen (drop : List PyStr) (n : Node) : Except Err Node :=
  let mi := oldToNew (n.index.map fun r => (r.id, keepCols n.cols drop r.labels))
  let ml := oldToNew (n.locs.map fun l => (l.id, keepCols n.cols drop l.labels))
  let ws := n.weights.map ofWeight
  if (missing mi ws).any (fun p => p.2 == 0) then .error (.integrityError "weight: CHECK")
  else
    let n := { n with
      weights := (mergeAmounts mi ws).map toWeight,
      index := n.index.filter fun r => !(goes mi r.id) }
    let n := n.recheckComplete
    .ok { n with
      quants := (mergeAmounts ml (n.quants.map ofQuant)).map toQuant,
      locs := n.locs.filter fun l => !(goes ml l.id) }

/-- `ALTER TABLE … DROP COLUMN` and the new UNIQUE indexes (`_dal.py` lines 579-603). -/
def Node.dropColumns (drop : List PyStr) (n : Node) : Except Err Node := do
  let n := { n with
    cols := n.cols.filter fun c => decide (c ∉ drop),
    index := n.index.map (fun r => { r with labels := keepCols n.cols drop r.labels }),
    locs := n.locs.map (fun r => { r with labels := keepCols n.cols drop r.labels }),
    structs := n.structs.map (fun r => { r with bits := keepCols n.cols drop r.bits }) }
  n.checkUnique
  .ok n

/-- The partition definitions after the removal (`_dal.py` lines 999-1019). -/
def Node.newCategories (n : Node) (drop : List PyStr) (preserveStructure : Bool) : Except Err (List (Finset PyStr)) :=
  let remaining := n.cols.filter fun c => decide (c ∉ drop)
  let filtered := (n.partDefs.getD []).filter fun d => decide (Disjoint d drop.toFinset)
  if remaining.all fun c => filtered.any fun d => decide (c ∈ d) then .ok filtered
  else if preserveStructure then .error (.toronError "categories are undefined for remaining columns")
  else .ok (distinct (((n.partDefs.getD []).map fun d => d \ (drop.toFinset ∩ n.cols.toFinset)).filter fun d => d ≠ ∅))

/-- Whether two records (the undefined one included) have the same remaining labels (`_dal.py` lines 1022-1028). -/
def Node.losesGranularity (n : Node) (drop : List PyStr) : Bool :=
  !(decide (n.index.map fun r => keepCols n.cols drop r.labels).Nodup)

/-- Records that cannot be told apart any more are merged, or the removal is refused (`_dal.py` lines 1019-1035). -/
def Node.mergeRecords (n : Node) (drop : List PyStr) (preserveGranularity : Bool) : Except Err Node :=
  if n.losesGranularity drop then
    if preserveGranularity then .error (.toronError "columns are needed to preserve granularity")
    else (n.coarsen drop).map Node.refreshIndexHash
  else .ok n

/-- `remove_index_columns` (`xnode.py` lines 70-104, `_dal.py` lines 980-1186) for a node without edges. The names are
written into two statements without quotes (`_dal.py` lines 1025, 598-600). The model says that a name which needs quotes
raises an error there; this is so for names with a blank and for SQL key words, while for a name that happens to be
another SQL expression it is a simplification. -/
def Node.removeIndexColumns (drop : List PyStr) (preserveStructure preserveGranularity : Bool) (n : Node) :
    Except Err Node := do
  if n.cols.all fun c => decide (c ∉ drop) then .ok n
  else do
    let remaining := n.cols.filter fun c => decide (c ∉ drop)
    let cats ← n.newCategories drop preserveStructure
    if remaining = [] ∨ ¬ remaining.all plainName then .error (.operationalError "syntax error")
    else do
      let n1 ← n.mergeRecords drop preserveGranularity
      if ¬ (n.cols.filter fun c => decide (c ∈ drop)).all plainName then .error (.operationalError "syntax error")
      else do
        let n2 ← { n1 with structs := [] }.dropColumns drop
        n2.updateCategories cats true

/-! ### Histories -/

/-- The methods of `xNode` that change a node. -/
inductive Op where
  | addIndexColumns (names : List PyStr)
  | removeIndexColumns (names : List PyStr) (preserveStructure preserveGranularity : Bool)
  | renameIndexColumns (mapper : PyStr → PyStr)
  | addIndexRecords (header : List PyStr) (rows : List (List PyStr))
  | addWeights (header : List PyStr) (hasId : Bool) (rows : List WeightRow) (name : PyStr) (selectors : List PyStr)
  | addPartitionDefinitions (defs : List (Finset PyStr))
  | removePartitionDefinitions (defs : List (Finset PyStr))
  | addQuantities (rows : List QuantRow)

/-- What a call does when it does not raise. -/
def Op.exec : Op → Node → Except Err Node
  | .addIndexColumns names => Node.addIndexColumns names
  | .removeIndexColumns names ps pg => Node.removeIndexColumns names ps pg
  | .renameIndexColumns f => Node.renameIndexColumns f
  | .addIndexRecords h rows => Node.addIndexRecords h rows
  | .addWeights h i rows name sel => Node.addWeights h i rows name sel
  | .addPartitionDefinitions defs => Node.addPartitionDefinitions defs
  | .removePartitionDefinitions defs => Node.removePartitionDefinitions defs
  | .addQuantities rows => Node.addQuantities rows

/-- A call: the savepoint is rolled back when it raises (`_schema.py` lines 951-957). -/
def Node.step (n : Node) (op : Op) : Node :=
  match op.exec n with
  | .ok n' => n'
  | .error _ => n

/-- A sequence of calls on a node. -/
def Node.run (n : Node) (ops : List Op) : Node := ops.foldl Node.step n

/-! ### Reading -/

/-- `index_columns()` (`_dal.py` lines 1204-1208). -/
def Node.indexColumns (n : Node) : List PyStr := n.cols

/-- `index_records()` (`_dal.py` lines 1258-1291) without conditions: the undefined record is among them. -/
def Node.indexRecords (n : Node) : List IndexRec := n.index

/-- `structure()` (`_dal.py` lines 2323-2333). -/
def Node.structure_ (n : Node) : List (List Bool) := n.structs.map (·.bits)

/-- `get_raw_quantities()` (`_dal.py` lines 1844-1860) without conditions: labels, attributes and value. -/
def Node.rawQuantities (n : Node) : List (List PyStr × Attrs × ℚ) :=
  n.quants.filterMap fun q =>
    match n.attrs.find? fun a => a.id == q.ag, n.locs.find? fun l => l.id == q.loc with
    | some a, some l => some (l.labels, a.attrs, q.value)
    | _, _ => none

end Toron.Legacy

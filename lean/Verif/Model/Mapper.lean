/-
Model of `class Mapper` and `class Mapper_OLD` (`src/toron/mapper.py` lines 62-442 and 444-834): rows of mapping
data are matched with the index records of two nodes, and combined into mappings.

The temporary SQLite database is modelled by lists. The dataspaces are assumed not to change while a mapper is
used. Warnings and counters are left out. Mapping values are numbers (SQLite would also take text).
-/
import Verif.Model.Store.Read
import Verif.Model.Reader

namespace Toron.Mapper

open Toron.Selectors (PyStr)
open Toron.Space

/-- What a row of mapping data says about one node: an index id (from an index code) or none, labels (empty ones
where nothing is said), and the level, as the bytes of a `BitFlags`. -/
structure Side where
  id : Option Nat
  labels : List PyStr
  level : List Byte
  deriving DecidableEq, Repr

/-- A row of `mapping_source` (`mapper.py` lines 103-112). -/
structure SourceRow where
  run : Nat
  node1 : Side
  node2 : Side
  value : ℚ
  deriving Repr

/-- A row of `node1_matches` or `node2_matches` (`mapper.py` lines 113-126). -/
structure Match where
  run : Nat
  index : Nat
  level : List Byte
  weight : Option ℚ
  prop : Option ℚ
  deriving DecidableEq, Repr

/-- The levels of a node, in the order of `sorted_levels` (`mapper.py` lines 213-216): finest first. -/
def levels (s : Store) : List (List Byte) := s.structsSorted.map fun st => (BitFlags.ofBits st.bits).bytes

/-- The level that the command line gives a row (`cli/command_mapping.py` lines 300-307). -/
def rowLevel (s : Store) (id : Option Nat) (labels : List PyStr) : List Byte :=
  match id with
  | none => (BitFlags.ofBits (labels.map fun x => !x.isEmpty)).bytes
  | some _ => (BitFlags.ofBits (s.cols.map fun _ => true)).bytes

/-- `Mapper.__init__` (`mapper.py` lines 128-160). Rows are numbered from one on. -/
def loadRows (s1 s2 : Store) (data : List (Side × Side × ℚ)) (n : Nat := 0) : Except Err (List SourceRow) :=
  match data with
  | [] => .ok []
  | (a, b, v) :: rest =>
    if !(levels s1).contains a.level then .error (.runtimeError "FILE1 has no partition definition")
    else if !(levels s2).contains b.level then .error (.runtimeError "FILE2 has no partition definition")
    else if v < 0 then .error (.integrityError "mapping_source: CHECK")
    else do
      let rows ← loadRows s1 s2 rest (n + 1)
      .ok (⟨n + 1, a, b, v⟩ :: rows)

/-- A row to be matched: its run, its level in the node, whether it names a record by id, and the records found
for it. -/
structure Task where
  run : Nat
  level : List Byte
  byId : Bool
  found : List Nat
  deriving Repr

/-- The records that are taken for a row (`mapper.py` lines 258-293, 677-706): none if there are more than the
limit; of several ones only those not matched at another level before, unless overlaps are allowed. A record
named by its id is always taken. -/
def takeFound (limit : Nat) (allow : Bool) (done : List Match) (t : Task) : List Nat :=
  if t.byId then t.found
  else if limit < t.found.length then []
  else if 1 < t.found.length && !allow then
    t.found.filter fun i => !(done.any fun m => m.index == i && m.level != t.level)
  else t.found

/-- The rows added to the match table for one row of mapping data (`mapper.py` lines 296-324, 712-738): nothing
if there are several records and one of them has no weight. (The CHECK of `weight_value` cannot fail, stored
weights are never negative.) -/
def newMatches (weight : Nat → Option ℚ) (t : Task) (ids : List Nat) : List Match :=
  if 1 < ids.length && ids.any (fun i => (weight i).isNone) then []
  else ids.map fun i => ⟨t.run, i, t.level, weight i, none⟩

/-- The loop over the rows. -/
def doTasks (limit : Nat) (allow : Bool) (weight : Nat → Option ℚ) (done : List Match) : List Task → List Match
  | [] => done
  | t :: ts => doTasks limit allow weight (done ++ newMatches weight t (takeFound limit allow done t)) ts

/-- `CAST(weight_value AS REAL) / total`: NULL if one is NULL, or the total is zero. -/
def sqlDiv : Option ℚ → Option ℚ → Option ℚ
  | some a, some b => if b = 0 then none else some (a / b)
  | _, _ => none

/-- `_refresh_proportions` (`mapper.py` lines 162-189, 587-609). -/
def refreshProportions (ms : List Match) : List Match :=
  ms.map fun m =>
    let run := ms.filter fun x => x.run == m.run
    { m with prop := some ((sqlDiv m.weight (sqlSum (run.map (·.weight)))).getD (1 / run.length)) }

/-- `get_weight` with the fallback for the undefined record (`mapper.py` lines 298-304). -/
def weightOrZero (s : Store) (group i : Nat) : Option ℚ :=
  match s.weightOf group i with
  | some w => some w
  | none => if i = 0 then some 0 else none

/-- The records for a row (`mapper.py` lines 243-257): the named one, if it exists, or those with the labels.
The order in which SQLite returns records is not specified; here it is that of the ids. -/
def findRecords (s : Store) (run : Nat) (x : Side) : Task :=
  match x.id with
  | some i => ⟨run, x.level, true, if s.index.any (fun r => r.id == i) then [i] else []⟩
  | none => ⟨run, x.level, false, s.matchingIds x.labels⟩

/-- The rows in the order in which they are matched (`mapper.py` lines 233-241). -/
def tasks (s : Store) (rows : List (Nat × Side)) : List Task :=
  (levels s).flatMap fun level =>
    (rows.filter fun r => r.2.level == level).map fun r => findRecords s r.1 r.2

/-- `Mapper.match_records` (`mapper.py` lines 191-326) for a side not matched before. -/
def matchRecords (s : Store) (limit : Nat) (allow : Bool) (rows : List (Nat × Side)) :
    Except Err (List Match) := do
  let g ← s.getDefaultWG
  .ok (refreshProportions (doTasks limit allow (weightOrZero s g.id) [] (tasks s rows)))

/-- A row of the result: source record, target record, level, value. -/
structure OutRow where
  other : Nat
  index : Nat
  level : List Byte
  value : Option ℚ
  deriving DecidableEq, Repr

/-- `*` of SQLite. -/
def sqlMul : Option ℚ → Option ℚ → Option ℚ
  | some a, some b => some (a * b)
  | _, _ => none

/-- The joined rows (`mapper.py` lines 408-418 and 426): key and `mapping_value * proportion`. `all` is false for
`Mapper` (undefined-to-undefined is left out), true for `Mapper_OLD` (lines 807-820). -/
def joined (all : Bool) (values : List (Nat × ℚ)) (src trg : List Match) :
    List ((Nat × Nat × List Byte) × Option ℚ) :=
  values.flatMap fun r =>
    (src.filter fun a => a.run == r.1).flatMap fun a =>
      (trg.filter fun b => b.run == a.run && (all || !(a.index == 0 && b.index == 0))).map fun b =>
        ((a.index, b.index, b.level), sqlMul (some r.2) (sqlMul a.prop b.prop))

/-- `ORDER BY other_index_id, index_id, mapping_level`. -/
def keyLe (a b : Nat × Nat × List Byte) : Bool :=
  decide (a.1 :: a.2.1 :: a.2.2.map (·.toNat) ≤ b.1 :: b.2.1 :: b.2.2.map (·.toNat))

/-- Sum the joined rows by key (`mapper.py` lines 419-429). -/
def aggregate (js : List ((Nat × Nat × List Byte) × Option ℚ)) : List OutRow :=
  (sortedBy keyLe (distinct (js.map (·.1)))).map fun k =>
    ⟨k.1, k.2.1, k.2.2, sqlSum ((js.filter fun j => decide (j.1 = k)).map (·.2))⟩

/-- `Mapper.iter_mappings` (`mapper.py` lines 390-431), `src` and `trg` being the matches of the source and of the
target node. -/
def iterMappings (rows : List SourceRow) (src trg : List Match) : List OutRow :=
  aggregate (joined false (rows.map fun r => (r.run, r.value)) src trg)

/-- The command line's way from rows to the mappings of both directions (`cli/command_mapping.py` lines 394-440):
node1 to node2, and node2 to node1. -/
def buildMappings (s1 s2 : Store) (limit : Nat) (allow : Bool) (data : List (Side × Side × ℚ)) :
    Except Err (List OutRow × List OutRow) := do
  let rows ← loadRows s1 s2 data
  let m1 ← matchRecords s1 limit allow (rows.map fun r => (r.run, r.node1))
  let m2 ← matchRecords s2 limit allow (rows.map fun r => (r.run, r.node2))
  .ok (iterMappings rows m1 m2, iterMappings rows m2 m1)

/-- `COUNT(DISTINCT index_id) … WHERE index_id != 0` (`mapper.py` lines 377-392). -/
def matchCount (ms : List Match) : Nat := (distinct ((ms.map (·.index)).filter fun i => i != 0)).length

/-- `get_cardinality(include_undefined=False)` (`repositories.py` lines 185-192). -/
def cardinality (s : Store) : Nat := (s.index.filter fun r => r.id != 0).length

/-- `Mapper.is_fully_matched` (`mapper.py` lines 365-395). -/
def isFullyMatched (s1 s2 : Store) (m1 m2 : List Match) : Bool :=
  cardinality s1 == matchCount m1 && cardinality s2 == matchCount m2

/-- A row of the result as given to `insert_mappings2` (`cli/command_mapping.py` lines 413-420 and 430-437). -/
def OutRow.toMapRow (x : OutRow) : MapRow := ⟨x.other, x.value.getD 0, x.index, [], some x.level⟩

end Toron.Mapper

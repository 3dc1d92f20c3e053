/-
Model of `load_mapping` (`src/toron/graph.py` lines 273-341) with `normalize_mapping_data` (lines 71-107) and
`class Mapper_OLD` (`src/toron/mapper.py` lines 444-834): a table of mapping data is matched with the index records
of two dataspaces, and the result is stored as a link.

The data is a table of texts. The filename hints, which only depend on the paths of the files, are parameters.
The two dataspaces are assumed to be different files. Logging and its statistics are left out.
-/
import Verif.Model.MappingCsv
import Verif.Model.QuantCsv

namespace Toron.LoadMapping

open Toron.Selectors (PyStr Sel)
open Toron.Space
open Toron.Mapper
open Toron.MappingCsv (Table Numbers valuePosition)
open Toron.QuantCsv (domainName)

/-- The position of the domain column in a part of the header that starts at `start`, if the dataspace has a domain
(`graph.py` lines 83-89). -/
def domainPosition (part : List PyStr) (start : Nat) (domain : PyStr) : List (Nat × PyStr) :=
  if domain = [] then []
  else match part.findIdx? (fun c => c == domainName) with
    | some p => [(start + p, domain)]
    | none => []

/-- `domain_indexes` (`graph.py` lines 81-89). -/
def domainPositions (header : List PyStr) (v : Nat) (d1 d2 : PyStr) : List (Nat × PyStr) :=
  domainPosition (header.take v) 0 d1 ++ domainPosition (header.drop (v + 1)) (v + 1) d2

/-- `[x for i, x in enumerate(row) if i not in domain_indexes]`, with `enumerate` starting at `n`. -/
def eraseAt (ps : List Nat) : Nat → List PyStr → List PyStr
  | _, [] => []
  | n, x :: xs => if n ∈ ps then eraseAt ps (n + 1) xs else x :: eraseAt ps (n + 1) xs

/-- The loop of `validate_and_parse` (`graph.py` lines 94-101). -/
def checkDomains : List (Nat × PyStr) → List PyStr → Except Err Unit
  | [], _ => .ok ()
  | (i, d) :: rest, row =>
    match row[i]? with
    | none => .error (.indexError "list index out of range")
    | some c => if c = d then checkDomains rest row else .error (.valueError "error in domain")

/-- What a row says about one dataspace (`mapper.py` lines 511-514). -/
def sideOf (labels : List PyStr) : Side := ⟨none, labels, (BitFlags.ofBits (labels.map fun x => !x.isEmpty)).bytes⟩

/-- The loop of `Mapper_OLD.__init__` (`mapper.py` lines 501-522) over the rows of `normalize_mapping_data`, which
are made one by one. `v` is the position of the value after the domains are removed, `n` the number of rows stored
so far. (A value is stored as it is; there is no check that it is not negative.) -/
def readRows (N : Numbers) (doms : List (Nat × PyStr)) (v : Nat) : Nat → List (List PyStr) →
    Except Err (List SourceRow)
  | _, [] => .ok []
  | n, row :: rest => do
    checkDomains doms row
    let cells := eraseAt (doms.map (·.1)) 0 row
    if cells.isEmpty then readRows N doms v n rest
    else match cells[v]? with
      | none => .error (.indexError "list index out of range")
      | some c => do
        let rows ← readRows N doms v (n + 1) rest
        .ok (⟨n + 1, sideOf (cells.take v), sideOf (cells.drop (v + 1)), N.value c⟩ :: rows)

/-- `node_bytes` in `_get_level_pairs` (`mapper.py` lines 571-577) before the check: the level in the dataspace of
the columns that the level of the data names. -/
def nodeLevel (s : Store) (cols : List PyStr) (level : List Byte) : List Byte :=
  let mapped := Text.compress cols (BitFlags.ofBytes level).toBits
  (BitFlags.ofBits (s.cols.map fun c => mapped.contains c)).bytes

/-- `granularity_dict` (`mapper.py` lines 564-566) at a level: the granularity, if the dataspace has that level. -/
def levelGran (s : Store) (level : List Byte) : Option (Option Gran) :=
  if level = [] then none
  else (s.structs.find? fun st => (BitFlags.ofBits st.bits).bytes == level).map (·.gran)

/-- The levels of the data with those of the dataspace, in the order of the data (`mapper.py` lines 568-578). -/
def levelPairs (s : Store) (cols : List PyStr) (inputs : List (List Byte)) : List (List Byte × Option (List Byte)) :=
  inputs.map fun a =>
    (a, if (levelGran s (nodeLevel s cols a)).isSome then some (nodeLevel s cols a) else none)

/-- The sort key (`mapper.py` line 581): -1 for an unknown level, here `none`, which is below every number as
granularities are not negative. -/
def pairKey (s : Store) (p : List Byte × Option (List Byte)) : Option Gran :=
  (p.2.bind (levelGran s)).join

/-- `_get_level_pairs` (`mapper.py` lines 525-584). Python cannot compare `None` with a number: the sort fails if
there are two levels or more, and the granularity of one that the dataspace has is `None`. -/
def orderedPairs (s : Store) (cols : List PyStr) (inputs : List (List Byte)) :
    Except Err (List (List Byte × Option (List Byte))) :=
  let ps := levelPairs s cols inputs
  if 1 < ps.length ∧ ps.any (fun p => p.2.isSome && (pairKey s p).isNone) = true then
    .error (.typeError "'<' not supported between instances of 'NoneType' and 'float'")
  else .ok (sortedBy (fun a b => granGe (pairKey s a) (pairKey s b)) ps)

/-- `{k: v for k, v in zip(columns, labels) if v != ''}` (`mapper.py` lines 688-689): for a name that is repeated
the last one counts. -/
def criteria (cols labels : List PyStr) : List (PyStr × PyStr) :=
  let items := (cols.zip labels).filter fun p => !p.2.isEmpty
  (distinct (items.map (·.1))).map fun k => (k, ((items.reverse.find? fun p => p.1 == k).map (·.2)).getD [])

/-- A row to be matched (`mapper.py` lines 685-693). -/
def taskOf (s : Store) (cols : List PyStr) (level : List Byte) (r : Nat × Side) : Task :=
  ⟨r.1, level, false, (s.filterByLabel (criteria cols r.2.labels)).map (·.id)⟩

/-- The rows in the order in which they are matched (`mapper.py` lines 663-684); those with an unknown level are
left out. -/
def tasksOf (s : Store) (cols : List PyStr) (pairs : List (List Byte × Option (List Byte))) (rows : List (Nat × Side)) :
    List Task :=
  pairs.flatMap fun p =>
    match p.2 with
    | none => []
    | some level => (rows.filter fun r => r.2.level == p.1).map (taskOf s cols level)

/-- `Mapper_OLD.match_records` (`mapper.py` lines 611-744). -/
def matchOld (s : Store) (limit : Nat) (allow : Bool) (cols : List PyStr) (rows : List (Nat × Side)) :
    Except Err (List Match) := do
  let g ← s.getDefaultWG
  let pairs ← orderedPairs s cols (distinct (rows.map fun r => r.2.level))
  .ok (refreshProportions (doTasks limit allow (s.weightOf g.id) [] (tasksOf s cols pairs rows)))

/-- `Mapper_OLD.get_mappings` (`mapper.py` lines 779-827). -/
def getMappings (rows : List SourceRow) (src trg : List Match) : List OutRow :=
  aggregate (joined true (rows.map fun r => (r.run, r.value)) src trg)

/-- The data read and matched with both dataspaces. -/
structure Matching where
  rows : List SourceRow
  left : List Match
  right : List Match

/-- The header without the domains, split at the value: columns on the left, position of the value, columns on the
right (`graph.py` line 105, `mapper.py` lines 497-499). -/
def splitHeader (edge : PyStr → Option PyStr) (link : PyStr) (doms : List (Nat × PyStr)) (header : List PyStr) :
    Except Err (List PyStr × Nat × List PyStr) :=
  let header := eraseAt (doms.map (·.1)) 0 header
  match valuePosition edge link header with
  | none => .error (.valueError "link name is not in data")
  | some v => .ok (header.take v, v, header.drop (v + 1))

/-- The first part of `load_mapping` (`graph.py` lines 286-297). -/
def matchData (edge : PyStr → Option PyStr) (N : Numbers) (s1 s2 : Store) (link : PyStr) (limit : Nat)
    (allow : Bool) (t : Table) : Except Err Matching :=
  match valuePosition edge link t.header with
  | none => .error (.valueError "link name is not in data")
  | some v => do
    let doms := domainPositions t.header v s1.getDomain s2.getDomain
    let cols ← splitHeader edge link doms t.header
    let rows ← readRows N doms cols.2.1 0 t.rows
    let m1 ← matchOld s1 limit allow cols.1 (rows.map fun r => (r.run, r.node1))
    let m2 ← matchOld s2 limit allow cols.2.2 (rows.map fun r => (r.run, r.node2))
    .ok ⟨rows, m1, m2⟩

/-- The options of a link given to `load_mapping`. -/
structure LinkArgs where
  name : PyStr
  selectors : List Sel
  isDefault : Option Bool

/-- `add_link` followed by `insert_mappings2` (`graph.py` lines 307-319 and 332-344) on the dataspace at the end of
the arrow. These are two transactions: if the second fails, the first is not undone. -/
def storeLink (a : LinkArgs) (other : PyStr) (hint : Option PyStr) (out : List OutRow) (s : Store) :
    Store × Except Err Unit :=
  match step (.addLink other a.name hint a.selectors a.isDefault none false) s with
  | (s', .error e) => (s', .error e)
  | (s', .ok _) => step (.insertMappings2 other (some a.name) (out.map OutRow.toMapRow)) s'

/-- `direction`: `'->'`, `'<-'` or `'<->'` (also written with two dashes). -/
inductive Direction | right | left | both
  deriving DecidableEq, Repr

/-- The dataspaces after a call of `load_mapping`, and its result. -/
structure Outcome where
  left : Store
  right : Store
  result : Except Err Unit

/-- The second part of `load_mapping` (`graph.py` lines 304-353). -/
def storeBoth (a : LinkArgs) (d : Direction) (hint1 hint2 : Option PyStr) (m : Matching) (s1 s2 : Store) : Outcome :=
  let r2 := if d = .left then (s2, .ok ()) else storeLink a s1.uid hint1 (getMappings m.rows m.left m.right) s2
  match r2.2 with
  | .error e => ⟨s1, r2.1, .error e⟩
  | .ok _ =>
    let r1 := if d = .right then (s1, .ok ()) else storeLink a s2.uid hint2 (getMappings m.rows m.right m.left) s1
    ⟨r1.1, r2.1, r1.2⟩

/-- `load_mapping` (`graph.py` lines 273-353). -/
def loadMapping (edge : PyStr → Option PyStr) (N : Numbers) (a : LinkArgs) (d : Direction) (hint1 hint2 : Option PyStr)
    (limit : Nat) (allow : Bool) (t : Table) (s1 s2 : Store) : Outcome :=
  match matchData edge N s1 s2 a.name limit allow t with
  | .error e => ⟨s1, s2, .error e⟩
  | .ok m => storeBoth a d hint1 hint2 m s1 s2

end Toron.LoadMapping

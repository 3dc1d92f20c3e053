/-
Model of the methods shared by all repositories (`src/toron/data_models.py`) and of the service functions
over a dataspace (`src/toron/data_service.py`).
-/
import Verif.Model.Store.Repos
import Mathlib.Algebra.BigOperators.Group.List.Basic

namespace Toron.Space

open Toron.Selectors (PyStr Sel startsWith endsWith)
open Toron.Partitions

/-! ### Weights -/

/-- `on_conflict` arguments; `other` stands for any other string. -/
inductive Policy where
  | abort | ignore | replace | sum | other
  deriving DecidableEq, Repr

/-- The result codes of `add_or_resolve` (`data_models.py` lines 762-767). -/
inductive Resolved where
  | inserted | skipped | overwritten | summed
  deriving DecidableEq, Repr

/-- `add_or_resolve` (`data_models.py` lines 725-797). `get_by_weight_group_id_and_index_id` raises
`KeyError` if the insert failed for another reason than an existing record. -/
def weightAddOrResolve (group index : Nat) (value : ℚ) (p : Policy) : M Resolved := fun s =>
  match weightAdd group index value s with
  | .ok (_, s') => .ok (.inserted, s')
  | .error (.valueError tag) =>
    if index = 0 ∨ value < 0 then .error (.valueError tag)
    else if p = .ignore then .ok (.skipped, s)
    else match s.findWeight group index with
      | none => .error (.keyError "no weight exists")
      | some w =>
        match p with
        | .replace => (do weightSetValue w.id value; return Resolved.overwritten) s
        | .sum => (do weightSetValue w.id (w.value + value); return Resolved.summed) s
        | .abort => .error (.exception "a weight record already exists")
        | _ => .error (.valueError "on_conflict")
  | .error e => .error e

/-- `WeightRepository.merge_by_index_id` (`data_models.py` lines 799-822): sum the weights of the records by
group, delete the old rows, add one row per group on the target. -/
def mergeWeights (ids : List Nat) (target : Nat) : M Unit := do
  let s ← get
  let ids := distinct (target :: ids)
  let old := ids.flatMap fun i => s.weights.filter fun w => w.index == i
  old.forM fun w => weightDelete w.id
  (distinct (old.map (·.group))).forM fun g =>
    weightAdd g target ((old.filter fun w => w.group == g).map (·.value)).sum

/-! ### Mappings -/

/-- Addition of proportions that may be `None` (`data_models.py` lines 1206-1209): `None` absorbs. -/
def addProp (a b : Option ℚ) : Option ℚ :=
  match a, b with
  | some x, some y => some (x + y)
  | _, _ => none

/-- The key `(link_id, other_index_id, mapping_level)` (`data_models.py` line 1204). -/
def Mapping.key (m : Mapping) : Nat × Int × List Byte := (m.link, m.other, m.level)

/-- `MappingRepository.merge_by_index_id` (`data_models.py` lines 1190-1223). -/
def mergeMappings (ids : List Nat) (target : Nat) : M Unit := do
  let s ← get
  let ids := distinct (target :: ids)
  let old := ids.flatMap fun i => s.maps.filter fun m => m.index == i
  old.forM fun m => mappingDelete m.id
  (distinct (old.map Mapping.key)).forM fun k =>
    let same := old.filter fun m => m.key == k
    mappingAdd k.1 k.2.1 target (some k.2.2) ((same.map (·.value)).sum)
      ((same.map (·.prop)).foldl addProp (some 0))

/-- `refresh_proportions` (`data_models.py` lines 1225-1250). -/
def refreshProportions (link : Nat) (other : Int) : M Unit := do
  let s ← get
  let ms := s.findMaps link other
  if other = 0 then
    ms.forM fun m =>
      if m.index = 0 then throw (.valueError "undefined-to-undefined mapping is invalid")
      else mappingUpdate { m with prop := some 0 }
  else
    let total := (ms.map (·.value)).sum
    ms.forM fun m =>
      mappingUpdate { m with
        prop := some (if total = 0 then 1 / (ms.length : ℚ) else m.value / total) }

/-- `bytes(BitFlags([1] * n))` (`data_service.py` line 141): the level that names every column. -/
def fullLevel (n : Nat) : List Byte := (BitFlags.ofBits (List.replicate n true)).bytes

/-! ### Index records -/

/-- `refresh_index_hash_property` (`data_service.py` lines 110-123). -/
def refreshIndexHash : M Unit := modify fun s => { s with indexHash := s.indexIds }

/-- `delete_index_record` (`data_service.py` lines 126-167). -/
def deleteIndexRecord (id : Nat) : M Unit := do
  let s ← get
  (s.weights.filter fun w => w.index == id).forM fun w => weightDelete w.id
  let ms := s.maps.filter fun m => m.index == id
  ms.forM fun m =>
    if m.level ≠ fullLevel s.cols.length then throw (.valueError "some mappings are ambiguous")
    else mappingDelete m.id
  (distinct (ms.map (·.other))).forM fun other => do
    (← get).links.forM fun l => refreshProportions l.id other
  indexDelete id

/-! ### Partitions -/

/-- The labels of the records other than the undefined one, restricted to the columns in `pdef`
(a name that is no column is a constant in SQL and changes nothing). -/
def Store.projected (s : Store) (pdef : Finset PyStr) : List (List PyStr) :=
  (s.index.filter fun r => r.id != 0).map fun r =>
    ((s.cols.zip r.labels).filter fun cl => cl.1 ∈ pdef).map (·.2)

/-- The granularity of a partition as computed in SQL (used by `rebuild_structure_table`). -/
def Store.granSql (s : Store) (pdef : Finset PyStr) : Option Gran :=
  calculateGranularitySql (pdef = ∅) (s.projected pdef)

/-- The granularity of a partition as computed in Python (used by `refresh_structure_granularity`: the
test `hasattr(optimizations, …)`, `data_service.py` line 935, is false for a dictionary). -/
def Store.granPy (s : Store) (pdef : Finset PyStr) : Option Gran :=
  calculateGranularity (pdef = ∅) (s.projected pdef)

/-- `[(x in pdef) for x in columns]` (`data_service.py` line 813). -/
def bitsOf (cols : List PyStr) (pdef : Finset PyStr) : List Bool := cols.map fun c => decide (c ∈ pdef)

/-- `compress(label_columns, structure.bits)` (`data_service.py` line 943) as a set. -/
def defOf (cols : List PyStr) (bits : List Bool) : Finset PyStr :=
  (((cols.zip bits).filter (·.2)).map (·.1)).toFinset

/-- `StructureRepository.add` (`repositories.py` lines 285-292), UNIQUE (`schema.py` lines 318-321). -/
def structAdd (g : Option Gran) (bits : List Bool) : M Unit := do
  let s ← get
  if bits = [] then throw (.typeError "missing argument 'bit'")
  else if bits.length ≠ s.cols.length then throw (.operationalError "label_structure: wrong number of values")
  else if bits ∈ s.structs.map (·.bits) then throw (.integrityError "label_structure: UNIQUE")
  else put { s with structs := s.structs ++ [⟨nextId (s.structs.map (·.id)), g, bits⟩] }

/-- `rebuild_structure_table` (`data_service.py` lines 784-814). -/
def rebuildStructure : M Unit := do
  modify fun s => { s with structs := [] }
  let s ← get
  let defs := s.partDefs.getD []
  if s.cols ≠ [] ∧ defs = [] then throw (.runtimeError "columns but no partition definitions")
  else (makeStructure defs).forM fun d => structAdd (s.granSql d) (bitsOf s.cols d)

/-- `refresh_structure_granularity` (`data_service.py` lines 927-946). -/
def refreshGranularity : M Unit := modify fun s =>
  { s with structs := s.structs.map fun r => { r with gran := s.granPy (defOf s.cols r.bits) } }

/-- `add_partition_definitions` (`data_service.py` lines 817-851). The warning about redundant
definitions is not modelled. -/
def addPartitionDefs (defs : List (Finset PyStr)) : M Unit := do
  let s ← get
  if s.cols = [] then throw (.runtimeError "must add index labels before specifying partitions")
  else if ¬ (∀ d ∈ defs, d ⊆ s.cols.toFinset) then throw (.valueError "invalid label name")
  else
    let minimized := findMinimalGeneratingSet [defs, s.partDefs.getD [], [s.cols.toFinset]]
    put { s with partDefs := some minimized }

/-- `add_partition_definition` (`data_service.py` lines 854-901). -/
def addPartitionDef (d : Finset PyStr) : M Unit := do
  let s ← get
  if s.cols = [] then throw (.runtimeError "must add index labels")
  else if ¬ d ⊆ s.cols.toFinset then throw (.valueError "invalid partition")
  else if d ∈ s.partDefs.getD [] then throw (.runtimeError "definition already exists")
  else
    let minimized := findMinimalGeneratingSet [[d], s.partDefs.getD [], [s.cols.toFinset]]
    if d ∉ minimized then throw (.runtimeError "already covered by a union")
    else put { s with partDefs := some minimized }

/-- `remove_partition_definition` (`data_service.py` lines 904-924). `property_repo.update` does nothing
when there is no such property. -/
def removePartitionDef (d : Finset PyStr) : M Unit := do
  let s ← get
  if d = s.cols.toFinset then throw (.exception "IntegrityError: cannot drop whole space")
  else
    let keep := (s.partDefs.getD []).filter (fun x => x ≠ d)
    let minimized := findMinimalGeneratingSet [keep, [s.cols.toFinset]]
    put { s with partDefs := s.partDefs.map fun _ => minimized }

/-- `refresh_or_rebuild_structure_granularity` (`data_service.py` lines 949-986). -/
def refreshOrRebuild : M Unit := do
  let s ← get
  if s.partDefs.getD [] ≠ [] then refreshGranularity
  else do
    addPartitionDefs [s.cols.toFinset]
    rebuildStructure

/-! ### Links -/

/-- `'.toron'`. -/
def toronExt : PyStr := ['.', 't', 'o', 'r', 'o', 'n']

/-- `get_links_by_ref` (`data_service.py` lines 411-454). -/
def getLinksByRef (links : List Link) (ref : PyStr) : Except Err (List Link) :=
  if ref = [] then .error (.toronError "must provide a reference value")
  else
    let exact := links.filter fun l => l.other == ref
    if exact ≠ [] then .ok exact
    else
      let byHint := links.filter fun l => l.hint == some ref
      let byHint := if endsWith ref toronExt then byHint
        else byHint ++ links.filter fun l => l.hint == some (ref ++ toronExt)
      let found := if byHint = [] ∧ 7 ≤ ref.length then
          links.filter fun l => startsWith l.other ref
        else byHint
      if (distinct (found.map (·.other))).length > 1 then .error (.toronError "more than one file")
      else if found = [] then .error (.toronError "no links match reference")
      else .ok found

/-- `get_link` (`data_service.py` lines 457-498). An empty name counts as no name. -/
def getLink (links : List Link) (ref : PyStr) (name : Option PyStr) (allowDefault : Bool := true) :
    Except Err Link := do
  let found ← getLinksByRef links ref
  if name ≠ none ∧ name ≠ some [] then
    match found.find? (fun l => some l.name == name) with
    | some l => .ok l
    | none => .error (.toronError "link not found")
  else match found with
    | [l] => .ok l
    | _ =>
      if !allowDefault then .error (.toronError "must specify name")
      else match found.find? (·.isDefault) with
        | some l => .ok l
        | none => .error (.toronError "cannot find default link")

/-- `find_links_by_ref` (`data_service.py` lines 382-408). -/
def findLinksByRef (links : List Link) (ref : PyStr) : List Link :=
  let exact := links.filter fun l => l.other == ref
  if exact ≠ [] then exact
  else
    let byHint := (links.filter fun l => l.hint == some ref) ++
      (if endsWith ref toronExt then links.filter fun l => l.hint == some (ref.take (ref.length - 6))
       else links.filter fun l => l.hint == some (ref ++ toronExt))
    if byHint ≠ [] then byHint
    else if 7 ≤ ref.length then links.filter fun l => startsWith l.other ref
    else []

/-- Lift a computation that only reads. -/
def liftE {α : Type} (e : Except Err α) : M α := fun s => e.map fun a => (a, s)

/-- The tail shared by the mapping operations (for example `space.py` lines 1924-1943): rebuild the hash
of the source ids, refresh all proportions, update the link record. -/
def refreshLink (link : Link) : M Unit := do
  let others := (← get).distinctOthers link.id
  others.forM fun o => refreshProportions link.id o
  linkUpdate { link with otherHash := some others, complete := (← get).mappingIsComplete link.id }

end Toron.Space

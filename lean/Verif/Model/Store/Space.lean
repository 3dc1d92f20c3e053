/-
Model of the operations of `DataSpace` (`src/toron/space.py` lines 253-2760) that change a dataspace.

Rows of input data are given in parsed form: the arguments of an operation are the columns it reads.
(Reading tables and checking their columns is modelled in `Verif/Model/Tabular.lean`.) Logging and
warnings are left out.
-/
import Verif.Model.Store.Service

namespace Toron.Space

open Toron.Selectors (PyStr Sel)
open Toron.Partitions

/-! ### Names -/

/-- `reserved_identifiers` of the backend joined with `COMMON_RESERVED_IDENTIFIERS`
(`dal1/schema.py` lines 25-30, `data_models.py` lines 30-35). -/
def reservedNames : List PyStr :=
  ["index_id", "_location_id", "_structure_id", "_granularity", "domain", "value", "weight"].map
    String.toList

/-- `validate_new_index_columns` (`data_service.py` lines 78-107). -/
def validateNewColumns (names : List PyStr) : M Unit := do
  let s ← get
  names.forM fun c =>
    if c ∈ reservedNames then throw (.toronError "reserved name")
    else if c ∈ s.cols then throw (.toronError "index label column already exists")
    else if c ∈ s.regAttrs.getD [] then throw (.toronError "used as an attribute name")
    else pure ()

/-- Names that SQLite takes for an existing column of one of the three label tables. -/
def Store.sqlNames (s : Store) : List PyStr :=
  (s.cols ++ ["index_id", "_location_id", "_structure_id", "_granularity"].map String.toList).map
    asciiLower

/-- One step of `LabelManager.add_columns` (`dal1/label_manager.py` lines 27-46): ALTER TABLE … ADD COLUMN with
the defaults `'-'`, `''` and `0` (`schema.py` lines 272-287). -/
def addColumn (c : PyStr) : M Unit := do
  let s ← get
  if asciiLower c ∈ s.sqlNames then throw (.operationalError "duplicate column name")
  else put { s with
    cols := s.cols ++ [c],
    index := s.index.map (fun r => { r with labels := r.labels ++ [['-']] }),
    locs := s.locs.map (fun r => { r with labels := r.labels ++ [[]] }),
    structs := s.structs.map (fun r => { r with bits := r.bits ++ [false] }) }

/-- `create_schema_constraints` (`dal1/schema.py` lines 303-321): the UNIQUE indexes can only be made if
there are no duplicates. -/
def checkUnique : M Unit := do
  let s ← get
  if s.cols ≠ [] ∧ ¬ ((s.index.map (·.labels)).Nodup ∧ (s.locs.map (·.labels)).Nodup ∧
      (s.structs.map (·.bits)).Nodup) then throw (.integrityError "UNIQUE")
  else pure ()

/-- `structure_repo.get_by_labels` (`data_models.py` lines 580-589). -/
def Store.structByLabels (s : Store) (d : Finset PyStr) : Option StructRec :=
  s.structs.find? fun r => r.bits == bitsOf s.cols d

/-- `BitFlags(labels)`: which labels are not empty. -/
def nonemptyBits (labels : List PyStr) : List Bool := labels.map fun l => !l.isEmpty

/-- `find_by_structure` (`repositories.py` lines 742-792) without filter: quantities, ordered by location, of
the locations whose nonempty labels are given by `bits`. -/
def Store.quantsByBits (s : Store) (bits : List Bool) : List (LocRec × Quant) :=
  (sortedBy (fun a b : LocRec => decide (a.id ≤ b.id))
    (s.locs.filter fun l => nonemptyBits l.labels == bits)).flatMap fun l =>
      (s.quants.filter fun q => q.loc == l.id).map fun q => (l, q)

/-- `add_index_columns` (`space.py` lines 454-523). -/
def addIndexColumns (names : List PyStr) : M Unit := do
  validateNewColumns names
  let oldCols := (← get).cols
  let oldWhole := oldCols.toFinset
  names.forM addColumn
  checkUnique
  addPartitionDef (← get).cols.toFinset
  rebuildStructure
  let s ← get
  match s.structByLabels oldWhole with
  | none => throw (.keyError "no structure matching labels")
  | some st =>
    let unusedByQuantity := s.quantsByBits st.bits = []
    let levels := (s.maps.filter fun m => s.links.any fun l => l.id == m.link).map (·.level)
    if unusedByQuantity ∧ fullLevel oldCols.length ∉ levels then do
      removePartitionDef oldWhole
      rebuildStructure
    else pure ()

/-- `mapping.get(x, x)` for a dictionary of new names. -/
def renamed (mapping : List (PyStr × PyStr)) (x : PyStr) : PyStr := (mapping.lookup x).getD x

/-- One step of `LabelManager.rename_columns` (`dal1/label_manager.py` lines 65-80). -/
def renameColumn (old new : PyStr) : M Unit := do
  let s ← get
  if old ∉ s.cols then throw (.operationalError "no such column")
  else if asciiLower new ∈ ({ s with cols := s.cols.filter (fun c => c ≠ old) } : Store).sqlNames then
    throw (.operationalError "duplicate column name")
  else put { s with cols := s.cols.map fun c => if c = old then new else c }

/-- `rename_index_columns` (`space.py` lines 525-551), also `rename_label_column` (lines 420-445) with
one item, with `rename_partition_definitions` (`data_service.py` lines 701-710). -/
def renameIndexColumns (mapping : List (PyStr × PyStr)) : M Unit := do
  let s ← get
  if ¬ (∀ p ∈ mapping, p.1 ∈ s.cols) then throw (.toronError "no label")
  else do
    validateNewColumns (mapping.map (·.2))
    mapping.forM fun p => renameColumn p.1 p.2
    modify fun s =>
      { s with partDefs := s.partDefs.map fun ds => ds.map fun d => d.image (renamed mapping) }

/-- Keep the entries of `xs` whose column is not dropped. -/
def keepCols {β : Type} (cols drop : List PyStr) (xs : List β) : List β :=
  ((cols.zip xs).filter fun cx => decide (cx.1 ∉ drop)).map (·.2)

/-- `drop_index_columns` (`space.py` lines 553-573) with `LabelManager.drop_columns`
(`dal1/label_manager.py` lines 82-112). Neither the partition definitions nor the granularities nor the mapping
levels are touched. -/
def dropIndexColumns (names : List PyStr) : M Unit := do
  let s ← get
  if ∃ c ∈ names, c ∈ reservedNames then throw (.valueError "reserved identifier")
  else if ∀ c ∈ s.cols, c ∈ names then throw (.runtimeError "cannot remove all index columns")
  else do
    put { s with
      cols := s.cols.filter (fun c => c ∉ names),
      index := s.index.map (fun r => { r with labels := keepCols s.cols names r.labels }),
      locs := s.locs.map (fun r => { r with labels := keepCols s.cols names r.labels }),
      structs := s.structs.map (fun r => { r with bits := keepCols s.cols names r.bits }) }
    checkUnique

/-- `add_partition_definitions` (`space.py` lines 281-307). -/
def opAddPartitionDefs (defs : List (Finset PyStr)) : M Unit := do
  addPartitionDefs defs
  rebuildStructure

/-- `add_partition_definition` (`space.py` lines 309-327). -/
def opAddPartitionDef (d : Finset PyStr) : M Unit := do
  addPartitionDef d
  rebuildStructure

/-- `drop_partition_definitions` (`space.py` lines 329-363). -/
def opDropPartitionDefs (defs : List (Finset PyStr)) : M Unit := do
  let s ← get
  if s.cols.toFinset ∈ defs then throw (.valueError "cannot drop whole space")
  else do
    let keep := (s.partDefs.getD []).filter (fun x => x ∉ defs)
    let minimized := findMinimalGeneratingSet [keep, [s.cols.toFinset]]
    put { s with partDefs := s.partDefs.map fun _ => minimized }
    rebuildStructure

/-- `set_registered_attributes` (`data_service.py` lines 1004-1034). -/
def setRegisteredAttributes (attrs : List PyStr) : M Unit := do
  let s ← get
  if ∃ a ∈ attrs, a ∈ reservedNames then throw (.valueError "reserved name")
  else if ∃ a ∈ attrs, a ∈ s.cols then throw (.valueError "already used as an index label")
  else if ¬ attrs.Nodup then throw (.valueError "attributes must be unique")
  else put { s with regAttrs := some attrs }

/-- `change_element_order` (`data_service.py` lines 1111-1140). -/
def changeElementOrder (seq : List PyStr) (element : PyStr) (offset : Int) : Except Err (List PyStr) :=
  match seq.idxOf? element with
  | none => .error (.toronError "not found")
  | some pos =>
    let newPos := min (max 0 ((pos : Int) + offset)) ((seq.length : Int) - 1)
    .ok ((seq.eraseIdx pos).insertIdx newPos.toNat element)

/-- `change_attribute_order` (`space.py` lines 380-394). -/
def changeAttributeOrder (a : PyStr) (offset : Int) : M Unit := do
  let seq ← liftE (changeElementOrder ((← get).regAttrs.getD []) a offset)
  setRegisteredAttributes seq

/-- `get_labels_in_display_order` (`data_service.py` lines 1088-1108). -/
def Store.displayOrder (s : Store) : List PyStr :=
  s.display.getD [] ++ s.cols.filter fun c => c ∉ s.display.getD []

/-- `change_label_order` (`space.py` lines 410-418) with `set_labels_in_display_order`
(`data_service.py` lines 1071-1085). -/
def changeLabelOrder (label : PyStr) (offset : Int) : M Unit := do
  let s ← get
  let seq ← liftE (changeElementOrder s.displayOrder label offset)
  if ∃ c ∈ seq, c ∉ s.cols then throw (.valueError "unknown labels")
  else put { s with display := some seq }

/-- `set_domain` (`data_service.py` lines 989-992). -/
def setDomain (d : PyStr) : M Unit := modify fun s => { s with domain := some d }

/-- `get_domain` (`data_service.py` lines 995-1001). -/
def Store.getDomain (s : Store) : PyStr := s.domain.getD []

/-! ### Index records -/

/-- A row given to `insert_index`: the `index_id` cell (`none`: no such column, or an empty cell), the labels
(`none`: no label columns), the cells of the weight columns (`none`: empty). An empty row is left out. -/
structure IndexRow where
  idv : Option Nat
  labels : Option (List PyStr)
  ws : List (Option ℚ)

/-- The counters `label_inserted` and `weight_inserted` (only whether they are zero matters). -/
structure Counts where
  labels : Bool
  weights : Bool
  deriving DecidableEq, Repr

/-- One weight cell (`space.py` lines 695-728). -/
def insertIndexWeight (index : Nat) (p : Policy) (c : Counts) (gw : WGroup × Option ℚ) : M Counts := do
  match gw.2 with
  | none => return c
  | some v =>
    match (← get).findWeight gw.1.id index with
    | some w =>
      match p with
      | .ignore => return c
      | .replace => do weightSetValue w.id v; return c
      | .abort => throw (.valueError "weight group already has a value")
      | _ => throw (.valueError "on_weight_conflict")
    | none => do
      weightAdd gw.1.id index v
      return { c with weights := true }

/-- The record a row refers to (`space.py` lines 655-692). -/
def insertIndexRecord (p : Policy) (c : Counts) (row : IndexRow) : M (Nat × Counts) := do
  match row.idv with
  | some i => do
    let r ← indexGet i
    match row.labels with
    | none => return (i, c)
    | some labels =>
      if labels = r.labels then return (i, c)
      else match p with
        | .ignore => return (i, c)
        | .replace => do indexUpdate { r with labels := labels }; return (i, c)
        | .abort => throw (.valueError "index_id and labels do not match")
        | _ => throw (.valueError "on_label_conflict")
  | none => fun s =>
    match indexAdd (row.labels.getD []) s with
    | .ok (i, s') => .ok ((i, { c with labels := true }), s')
    | .error (.valueError tag) =>
      match s.findByLabels (row.labels.getD []) with
      | some r => .ok ((r.id, c), s)
      | none => .error (.valueError tag)
    | .error e => .error e

/-- One row of `insert_index` (`space.py` lines 641-728). -/
def insertIndexRow (groups : List WGroup) (pl pw : Policy) (c : Counts) (row : IndexRow) : M Counts := do
  if [] ∈ row.labels.getD [] then return c
  else do
    let (i, c) ← insertIndexRecord pl c row
    (groups.zip row.ws).foldlM (insertIndexWeight i pw) c

/-- Recompute `is_complete` of every weight group (`space.py` lines 753-757). -/
def recomputeComplete : M Unit := do
  (← get).wgroups.forM fun g => do
    wgroupUpdate { g with complete := (← get).wgroupIsComplete g.id }

/-- The weight groups named by the weight columns (`space.py` lines 600-634). -/
def insertIndexGroups (weights : Option (List PyStr)) (wcols : List PyStr) : M (List WGroup) := do
  match weights with
  | some names => do
    names.forM fun n => do let _ ← wgroupGetByName n
    (wcols.filter fun n => n ∈ names).mapM wgroupGetByName
  | none => wcols.mapM wgroupGetByName

/-- After records have been added (`space.py` lines 738-751). -/
def afterNewRecords : M Unit := do
  refreshIndexHash
  refreshOrRebuild
  (← get).links.forM fun l => whenM l.complete (linkUpdate { l with complete := false })

/-- `insert_index` (`space.py` lines 575-757). `wcols` are the weight columns of the input in order; with
`weights = none` all groups are taken, so columns that are no group are dropped by the caller;
with `weights = some names` every name must be a group. -/
def insertIndex (weights : Option (List PyStr)) (wcols : List PyStr) (pl pw : Policy)
    (rows : List IndexRow) : M Unit := do
  let s ← get
  if ¬ (∀ n ∈ weights.getD [], n ∈ wcols) then throw (.keyError "weights not in input data")
  else if s.cols = [] then throw (.exception "no label columns defined")
  else do
    let groups ← insertIndexGroups weights wcols
    let c ← rows.foldlM (insertIndexRow groups pl pw) ⟨false, false⟩
    whenM c.labels afterNewRecords
    whenM (c.labels || c.weights) recomputeComplete

/-- Groups that have become complete (`space.py` lines 973-979, 1077-1082). -/
def promoteGroups : M Unit := do
  (← get).wgroups.forM fun g => do
    whenM (!g.complete && (← get).wgroupIsComplete g.id) (wgroupUpdate { g with complete := true })

/-- Links that have become complete (`space.py` lines 981-987). -/
def promoteLinks : M Unit := do
  (← get).links.forM fun l => do
    whenM (!l.complete && (← get).mappingIsComplete l.id) (linkUpdate { l with complete := true })

/-- The counters of `update_index` and the set `previously_merged`. -/
structure UpdateAcc where
  merged : List Nat
  updated : Bool

/-- A conflicting record (`space.py` lines 928-950): merge it into `r` and delete it. -/
def mergeConflict (merge : Bool) (acc : UpdateAcc) (r : IndexRec) : Option IndexRec → M UpdateAcc
  | none => pure acc
  | some other =>
    if !merge then throw (.valueError "new labels conflict with the existing record")
    else do
      mergeWeights [other.id] r.id
      mergeMappings [other.id] r.id
      indexDelete other.id
      pure { acc with merged := acc.merged ++ [other.id] }

/-- One row of `update_index` (`space.py` lines 912-957). -/
def updateIndexRow (merge : Bool) (acc : UpdateAcc) (row : Nat × List PyStr) : M UpdateAcc := do
  if [] ∈ row.2 then return acc
  else do
    let s ← get
    match s.index.find? (fun r => r.id == row.1) with
    | none =>
      if row.1 ∈ acc.merged then throw (.valueError "merged with another record on a previous row")
      else return acc
    | some r => do
      let acc ← mergeConflict merge acc r (s.findByLabels row.2)
      indexUpdate { r with labels := row.2 }
      return { acc with updated := true }

/-- After records have been merged (`space.py` lines 962-987). -/
def afterMerge : M Unit := do
  refreshIndexHash
  promoteGroups
  promoteLinks

/-- `update_index` (`space.py` lines 890-988). Rows: `index_id` and one label per column. -/
def updateIndex (merge : Bool) (rows : List (Nat × List PyStr)) : M Unit := do
  let acc ← rows.foldlM (updateIndexRow merge) ⟨[], false⟩
  whenM (acc.merged ≠ [] ∨ acc.updated) refreshGranularity
  whenM (acc.merged ≠ []) afterMerge

/-- What is to be deleted: rows with id and labels, or criteria. -/
inductive Target (ρ : Type) where
  | rows (rs : List ρ)
  | criteria (cs : List (PyStr × PyStr))
  deriving Repr

/-- `if data and criteria … elif criteria … else` (for example `space.py` lines 1007-1008, 1057). -/
def Target.isEmpty {ρ : Type} : Target ρ → Bool
  | .rows rs => rs.isEmpty
  | .criteria cs => cs.isEmpty

/-- The end of `delete_index` (`space.py` lines 1065-1112). -/
def afterDeleteIndex : M Unit := do
  refreshIndexHash
  refreshGranularity
  promoteGroups
  (← get).links.forM fun l => do
    let s ← get
    linkUpdate { l with
      otherHash := some (s.distinctOthers l.id), complete := l.complete || s.mappingIsComplete l.id }

/-- One row of `delete_index` (`space.py` lines 1030-1055). -/
def deleteIndexRow (d : Bool) (row : Nat × List PyStr) : M Bool := do
  let s ← get
  match s.index.find? (fun r => r.id == row.1) with
  | none => return d
  | some r =>
    if r.labels ≠ row.2 then return d
    else do
      deleteIndexRecord r.id
      return true

/-- The records to delete (`space.py` lines 1023-1066); the result is whether any was deleted. -/
def deleteIndexTarget (t : Target (Nat × List PyStr)) : M Bool := do
  match t with
  | .rows rs => rs.foldlM deleteIndexRow false
  | .criteria cs => do
    let rs := (← get).filterByLabel cs
    rs.forM fun r => deleteIndexRecord r.id
    return !rs.isEmpty

/-- `delete_index` (`space.py` lines 1005-1112). -/
def deleteIndex (t : Target (Nat × List PyStr)) : M Unit := do
  if t.isEmpty then throw (.typeError "expected data or keyword criteria")
  else do
    let deleted ← deleteIndexTarget t
    whenM deleted afterDeleteIndex

/-! ### Weights -/

/-- `set_default_weight_group` (`data_service.py` lines 620-628). -/
def setDefaultWeightGroup (g : Option Nat) : M Unit := modify fun s => { s with defaultWG := some g }

/-- `add_weight_group` (`space.py` lines 1144-1183). -/
def addWeightGroup (name : PyStr) (selectors : List Sel) (complete : Bool) (makeDefault : Option Bool) :
    M Unit := do
  let s ← get
  let mk := if makeDefault = none ∧ s.wgroups.isEmpty then true else makeDefault.getD false
  match s.findWGroup name with
  | some _ => throw (.toronError "weight group already exists")
  | none => do
    wgroupAdd name selectors complete
    if mk then do
      let g ← wgroupGetByName name
      setDefaultWeightGroup (some g.id)
    else pure ()

/-- `edit_weight_group` (`space.py` lines 1185-1195). Changing the id is not modelled. -/
def editWeightGroup (name : PyStr) (newName : Option PyStr) (selectors : Option (List Sel))
    (complete : Option Bool) : M Unit := do
  match (← get).findWGroup name with
  | none => pure ()
  | some g => wgroupUpdate { g with
      name := newName.getD g.name, selectors := selectors.getD g.selectors,
      complete := complete.getD g.complete }

/-- `drop_weight_group` (`space.py` lines 1197-1213). -/
def dropWeightGroup (name : PyStr) : M Unit := do
  match (← get).findWGroup name with
  | none => pure ()
  | some g => do
    wgroupDelete g.id
    let s ← get
    match s.defaultWG with
    | none => throw (.keyError "default_weight_group_id")
    | some d => if d = some g.id then put { s with defaultWG := none } else pure ()

/-- A row of weight data: `index_id` if that column is given, the labels, the value (`none`: no real
number). -/
structure WeightRow where
  idv : Option Nat
  labels : List PyStr
  value : Option ℚ
  deriving DecidableEq, Repr

/-- The record a row of weight data refers to (`space.py` lines 1320-1341). -/
def Store.weightRowRecord (s : Store) (row : WeightRow) : Option IndexRec :=
  match row.idv with
  | some i => (s.index.find? (fun r => r.id == i)).filter fun r => r.labels == row.labels
  | none => s.findByLabels row.labels

/-- One row of `insert_weights` (`space.py` lines 1304-1352). -/
def insertWeightRow (group : Nat) (p : Policy) (inserted : Bool) (row : WeightRow) : M Bool := do
  match row.value with
  | none => return inserted
  | some v => do
    match (← get).weightRowRecord row with
    | none => return inserted
    | some r =>
      if r.id = 0 then return inserted
      else fun s =>
        match weightAddOrResolve group r.id v p s with
        | .ok (.inserted, s') => .ok (true, s')
        | .ok (_, s') => .ok (inserted, s')
        | .error _ => .error (.exception "this error occured on record")

/-- `get_or_create` of a weight group (`space.py` lines 1284-1291). -/
def wgroupGetOrAdd (name : PyStr) : M WGroup := do
  whenM ((← get).findWGroup name).isNone (wgroupAdd name [] false)
  wgroupGetByName name

/-- The end of `insert_weights` and `update_weights` (`space.py` lines 1353-1358, 1450-1453). -/
def afterWeights (g : WGroup) (inserted : Bool) : M Unit := do
  let s ← get
  whenM (inserted && s.wgroupIsComplete g.id) (wgroupUpdate { g with complete := true })

/-- `insert_weights` (`space.py` lines 1270-1358). -/
def insertWeights (name : PyStr) (p : Policy) (rows : List WeightRow) : M Unit := do
  if p = .other then throw (.valueError "on_conflict")
  else do
    let g ← wgroupGetOrAdd name
    let inserted ← rows.foldlM (insertWeightRow g.id p) false
    afterWeights g inserted

/-- One row of `update_weights` (`space.py` lines 1418-1449). -/
def updateWeightRow (group : Nat) (inserted : Bool) (row : Nat × List PyStr × ℚ) : M Bool := do
  let s ← get
  match s.index.find? (fun r => r.id == row.1) with
  | none => return inserted
  | some r =>
    if r.labels ≠ row.2.1 then return inserted
    else match s.findWeight group r.id with
      | some w => do weightSetValue w.id row.2.2; return inserted
      | none => do weightAdd group r.id row.2.2; return true

/-- `update_weights` (`space.py` lines 1391-1453). -/
def updateWeights (name : PyStr) (rows : List (Nat × List PyStr × ℚ)) : M Unit := do
  let g ← wgroupGetByName name
  let inserted ← rows.foldlM (updateWeightRow g.id) false
  afterWeights g inserted

/-- One record of `delete_weights` (`space.py` lines 1538-1545, 1555-1562). -/
def deleteWeightOf (group : Nat) (d : Bool) (index : Nat) : M Bool := do
  match (← get).findWeight group index with
  | some w => do weightDelete w.id; return true
  | none => return d

/-- One row of `delete_weights` (`space.py` lines 1523-1545). -/
def deleteWeightRow (group : Nat) (d : Bool) (row : Nat × List PyStr) : M Bool := do
  let s ← get
  match s.index.find? (fun r => r.id == row.1) with
  | none => return d
  | some r => if r.labels ≠ row.2 then return d else deleteWeightOf group d r.id

/-- The weights to delete (`space.py` lines 1515-1562); the result is whether any was deleted. -/
def deleteWeightTarget (group : Nat) (t : Target (Nat × List PyStr)) : M Bool := do
  match t with
  | .rows rs => rs.foldlM (deleteWeightRow group) false
  | .criteria cs => do
    let rs := (← get).filterByLabel cs
    (rs.map (·.id)).foldlM (deleteWeightOf group) false

/-- `delete_weights` (`space.py` lines 1491-1568). -/
def deleteWeights (name : PyStr) (t : Target (Nat × List PyStr)) : M Unit := do
  let g ← wgroupGetByName name
  if t.isEmpty then throw (.typeError "expected data or keyword criteria")
  else do
    let deleted ← deleteWeightTarget g.id t
    whenM (deleted && g.complete) (wgroupUpdate { g with complete := false })

/-! ### Links and mappings -/

/-- `add_link` (`space.py` lines 1609-1666). -/
def addLink (other : PyStr) (name : PyStr) (hint : Option PyStr) (selectors : List Sel)
    (isDefault : Option Bool) (otherHash : Option (List Int)) (complete : Bool) : M Unit := do
  let others := (← get).links.filter fun l => l.other == other
  if others.any (fun l => l.name == name) then throw (.toronError "a link with that name exists")
  else do
    let dflt := isDefault.getD others.isEmpty
    if dflt then
      others.forM fun l => if l.isDefault then linkUpdate { l with isDefault := false } else pure ()
    else pure ()
    linkAdd ⟨0, other, hint, name, selectors, dflt, otherHash, complete⟩

/-- Changes given to `edit_link` (`none`: not given). Changing the id is not modelled. -/
structure LinkChanges where
  other : Option PyStr := none
  hint : Option (Option PyStr) := none
  name : Option PyStr := none
  selectors : Option (List Sel) := none
  isDefault : Option Bool := none
  otherHash : Option (Option (List Int)) := none
  complete : Option Bool := none

/-- `replace(link, **changes)`. -/
def LinkChanges.apply (c : LinkChanges) (l : Link) : Link :=
  { l with
    other := c.other.getD l.other, hint := c.hint.getD l.hint, name := c.name.getD l.name,
    selectors := c.selectors.getD l.selectors, isDefault := c.isDefault.getD l.isDefault,
    otherHash := c.otherHash.getD l.otherHash, complete := c.complete.getD l.complete }

/-- `edit_link` (`space.py` lines 1668-1686). -/
def editLink (ref : PyStr) (name : Option PyStr) (c : LinkChanges) : M Unit := do
  let l ← liftE (getLink (← get).links ref name)
  if c.isDefault = some true then
    ((← get).links.filter fun x => x.other == l.other).forM fun x =>
      linkUpdate { x with isDefault := false }
  else pure ()
  linkUpdate (c.apply l)

/-- `drop_link` (`space.py` lines 1688-1697). -/
def dropLink (ref : PyStr) (name : Option PyStr) : M Unit := do
  let l ← liftE (getLink (← get).links ref name)
  linkDelete l.id

/-- A row of mapping data. `level = none` stands for `None`. -/
structure MapRow where
  other : Int
  value : ℚ
  index : Nat
  labels : List PyStr
  level : Option (List Byte)
  deriving DecidableEq, Repr

/-- The values a mapping level may have in `insert_mappings2` (`space.py` lines 1789-1792). -/
def Store.levels2 (s : Store) : List (Option (List Byte)) :=
  s.structs.map fun st => if st.bits.any id then some (BitFlags.ofBits st.bits).bytes else none

/-- One row of `insert_mappings2` (`space.py` lines 1795-1816). -/
def insertMapping2Row (levels : List (Option (List Byte))) (link : Nat) (inserted : Bool)
    (row : MapRow) : M Bool := do
  if row.level ∉ levels then return inserted
  else if row.other = 0 ∧ row.index = 0 then return inserted
  else do
    mappingAdd link row.other row.index row.level row.value none
    return true

/-- `insert_mappings2` (`space.py` lines 1747-1853). -/
def insertMappings2 (ref : PyStr) (name : Option PyStr) (rows : List MapRow) : M Unit := do
  let s ← get
  let l ← liftE (getLink s.links ref name)
  let inserted ← rows.foldlM (insertMapping2Row s.levels2 l.id) false
  whenM inserted (refreshLink l)

/-- `BitFlags(level) not in structure` (`space.py` lines 1881, 1903). -/
def Store.levelOk (s : Store) (level : Option (List Byte)) : Bool :=
  match level with
  | none => true
  | some lv => lv.isEmpty ||
      s.structs.any fun st => (BitFlags.ofBytes lv).bytes == (BitFlags.ofBits st.bits).bytes

/-- The checks before a mapping is written (`space.py` lines 1885-1905, 1985-2005). -/
def Store.mapRowOk (s : Store) (row : MapRow) : Bool :=
  (match s.index.find? (fun r => r.id == row.index) with
    | some r => decide (r.labels = row.labels)
    | none => false) && s.levelOk row.level

/-- One row of `insert_mappings` (`space.py` lines 1884-1919). -/
def insertMappingRow (link : Nat) (inserted : Bool) (row : MapRow) : M Bool := do
  if !(← get).mapRowOk row then return inserted
  else fun s =>
    match mappingAdd link row.other row.index row.level row.value none s with
    | .ok (_, s') => .ok (true, s')
    | .error _ => .error (.exception "mapping could not be added")

/-- `insert_mappings` (`space.py` lines 1855-1945). The check of the first three column names is
represented by `colsOk`. -/
def insertMappings (ref : PyStr) (name : Option PyStr) (colsOk : Bool) (rows : List MapRow) :
    M Unit := do
  if !colsOk then throw (.valueError "columns")
  else do
    let l ← liftE (getLink (← get).links ref name)
    let inserted ← rows.foldlM (insertMappingRow l.id) false
    whenM inserted (refreshLink l)

/-- One row of `update_mappings` (`space.py` lines 1984-2030). The result: whether a mapping was inserted,
whether one was updated. -/
def updateMappingRow (link : Nat) (c : Bool × Bool) (row : MapRow) : M (Bool × Bool) := do
  let s ← get
  if !s.mapRowOk row then return c
  else match s.findMap link row.other row.index with
    | some m =>
      match row.level with
      | none => throw (.typeError "mapping_level must be bytes")
      | some lv => do
        mappingUpdate { m with value := row.value, level := lv }
        return (c.1, true)
    | none => do
      mappingAdd link row.other row.index row.level row.value none
      return (true, c.2)

/-- `update_mappings` (`space.py` lines 1947-2058). -/
def updateMappings (ref : PyStr) (name : Option PyStr) (colsOk : Bool) (rows : List MapRow) :
    M Unit := do
  if !colsOk then throw (.valueError "columns")
  else do
    let l ← liftE (getLink (← get).links ref name)
    let c ← rows.foldlM (updateMappingRow l.id) (false, false)
    if c.1 then refreshLink l
    else if c.2 then
      ((← get).distinctOthers l.id).forM fun o => refreshProportions l.id o
    else pure ()

/-- One row of `delete_mappings` (`space.py` lines 2123-2163). -/
def deleteMappingRow (link : Nat) (d : Bool) (row : MapRow) : M Bool := do
  let s ← get
  match s.index.find? (fun r => r.id == row.index) with
  | none => return d
  | some r =>
    if r.labels ≠ row.labels then return d
    else match s.findMap link row.other row.index with
      | none => return d
      | some m =>
        if m.value ≠ row.value then return d
        else if m.level ≠ fullLevel s.cols.length then return d
        else do mappingDelete m.id; return true

/-- `criteria_level | BitFlags(level) == criteria_level` (`space.py` lines 2168, 2178-2179). -/
def coveredBy (cols : List PyStr) (cs : List (PyStr × PyStr)) (level : List Byte) : Bool :=
  let flags := BitFlags.ofBits (cols.map fun c => decide (c ∈ cs.map (·.1)))
  (flags.or (BitFlags.ofBytes level)).bytes == flags.bytes

/-- The mappings to delete (`space.py` lines 2105-2188); the result is whether any was deleted. -/
def deleteMappingTarget (link : Nat) (colsOk : Bool) (t : Target MapRow) : M Bool := do
  match t with
  | .rows rs =>
    if !colsOk then throw (.valueError "columns") else rs.foldlM (deleteMappingRow link) false
  | .criteria cs => do
    let s ← get
    let ms := (s.filterByLabel cs).flatMap fun r =>
      s.maps.filter fun m => m.link == link && m.index == r.id && coveredBy s.cols cs m.level
    ms.forM fun m => mappingDelete m.id
    return !ms.isEmpty

/-- `delete_mappings` (`space.py` lines 2082-2207). -/
def deleteMappings (ref : PyStr) (name : Option PyStr) (colsOk : Bool) (t : Target MapRow) :
    M Unit := do
  let l ← liftE (getLink (← get).links ref name)
  if t.isEmpty then throw (.typeError "expected data or keyword criteria")
  else do
    let deleted ← deleteMappingTarget l.id colsOk t
    whenM deleted (refreshLink l)

/-- The statements of `reify_mappings` (`space.py` lines 2211-2293), which runs without a
transaction: every update is committed on its own. -/
def reifySteps (s : Store) (l : Link) (cs : List (PyStr × PyStr)) : List (M Unit) :=
  let full := fullLevel s.cols.length
  let chosen := if cs = [] then s.maps.filter fun m => m.link == l.id
    else (s.filterByLabel cs).flatMap fun r =>
      s.maps.filter fun m => m.link == l.id && m.index == r.id &&
        coveredBy s.cols cs m.level
  (chosen.filter fun m => !(m.other == 0 && m.index == 0) && m.level != full).map fun m =>
    mappingUpdate { m with level := full }

/-- Run statements one by one, each committed on its own; stop at the first error. -/
def runAuto : List (M Unit) → Store → Store × Except Err Unit
  | [], s => (s, .ok ())
  | m :: ms, s =>
    match runTx m s with
    | (s', .ok _) => runAuto ms s'
    | (s', .error e) => (s', .error e)

/-- `reify_mappings` (`space.py` lines 2211-2293). -/
def reifyMappings (ref : PyStr) (name : Option PyStr) (cs : List (PyStr × PyStr)) (s : Store) :
    Store × Except Err Unit :=
  match getLink s.links ref name with
  | .error e => (s, .error e)
  | .ok l => runAuto (reifySteps s l cs) s

/-! ### Quantities -/

/-- A row of quantity data: the `domain` cell (`none`: no such column), the labels in storage order, the
cells of the attribute columns, the value. -/
structure QuantRow where
  domain : Option PyStr
  labels : List PyStr
  attrs : Attrs
  value : ℚ
  deriving DecidableEq, Repr

/-- `{k: row_dict[k] for k in names if row_dict[k]}` (`space.py` lines 2346, 2559). The keys of a dictionary are
different. -/
def QuantRow.pick (row : QuantRow) (names : List PyStr) : Attrs :=
  (distinct names).filterMap fun k => match row.attrs.lookup k with
    | some v => if v.isEmpty then none else some (k, v)
    | none => none

/-- `{k: v for k, v in labels_dict.items() if v}` (`space.py` line 2375, `data_service.py` line 182). -/
def labelCriteria (cols labels : List PyStr) : List (PyStr × PyStr) :=
  (cols.zip labels).filter fun cl => !cl.2.isEmpty

/-- `BitFlags(labels) in structure` (`space.py` line 2355, `data_service.py` line 211). -/
def Store.structOk (s : Store) (labels : List PyStr) : Bool :=
  s.structs.any fun st =>
    (BitFlags.ofBits (nonemptyBits labels)).bytes == (BitFlags.ofBits st.bits).bytes

/-- One row of `insert_quantities2` (`space.py` lines 2336-2427). -/
def insertQuantity2Row (allowLabel allowPartition : Bool) (p : Policy) (row : QuantRow) : M Unit := do
  let s ← get
  if row.domain ≠ none ∧ row.domain ≠ some s.getDomain then throw (.valueError "domain")
  else
    let attrs := row.pick (s.regAttrs.getD [])
    if attrs = [] then pure ()
    else if !s.structOk row.labels && !allowPartition then throw (.valueError "no matching partition")
    else if (s.filterByLabel (labelCriteria s.cols row.labels)).isEmpty && !allowLabel then
      throw (.valueError "invalid labels")
    else do
      let loc ← locGetOrAdd row.labels
      let ag ← agGetOrAdd attrs
      fun s =>
        match quantAdd loc.id ag.id row.value s with
        | .ok (_, s') => .ok ((), s')
        | .error e =>
          match s.findQuant loc.id ag.id with
          | none => .error e
          | some q =>
            match p with
            | .abort => .error (.valueError "already been loaded")
            | .ignore => .ok ((), s)
            | .replace => quantSetValue q.id row.value s
            | .sum => quantSetValue q.id (q.value + row.value) s
            | .other => .error (.valueError "on_existing")

/-- `insert_quantities2` (`space.py` lines 2295-2427). -/
def insertQuantities2 (allowLabel allowPartition : Bool) (p : Policy) (rows : List QuantRow) :
    M Unit := do
  if (← get).regAttrs.getD [] = [] then throw (.toronError "no attributes registered")
  else rows.forM (insertQuantity2Row allowLabel allowPartition p)

/-- One row of `insert_quantities` (`space.py` lines 2546-2574). -/
def insertQuantityRow (names : List PyStr) (row : QuantRow) : M Unit := do
  let s ← get
  if s.getDomain ≠ [] ∧ row.domain ≠ some s.getDomain then pure ()
  else
    let attrs := row.pick names
    if attrs = [] then pure ()
    else do
      let loc ← locGetOrAdd row.labels
      let ag ← agGetOrAdd attrs
      quantAdd loc.id ag.id row.value

/-- `insert_quantities` (`space.py` lines 2502-2574). -/
def insertQuantities (attributes : List PyStr) (rows : List QuantRow) : M Unit := do
  let s ← get
  let names := if s.getDomain = [] then attributes else attributes.filter fun a => a ≠ "domain".toList
  rows.forM (insertQuantityRow names)

/-- `any(filter_index_ids_by_label(criteria))` (`data_service.py` lines 183, 215): the id 0 does not count. -/
def Store.anyIndex (s : Store) (labels : List PyStr) : Bool :=
  (s.filterByLabel (labelCriteria s.cols labels)).any fun r => r.id != 0

/-- `find_locations_without_index` (`data_service.py` lines 170-184). -/
def Store.locsWithoutIndex (s : Store) : List LocRec :=
  s.locs.filter fun l => !s.anyIndex l.labels

/-- `find_nonmatching_locations` (`data_service.py` lines 198-216). -/
def Store.nonmatchingLocs (s : Store) : List LocRec :=
  s.locs.filter fun l => !s.structOk l.labels || !s.anyIndex l.labels

/-- `delete_quantities_without_index` (`space.py` lines 2652-2687). -/
def deleteQuantitiesWithoutIndex : M Unit := do
  let s ← get
  s.locsWithoutIndex.forM fun l =>
    (s.quants.filter fun q => q.loc == l.id).forM fun q => quantDelete q.id
  let s ← get
  (s.locs.filter fun l => !s.quants.any fun q => q.loc == l.id).forM fun l => locDelete l.id
  let s ← get
  (s.agroups.filter fun g => !s.quants.any fun q => q.ag == g.id).forM fun g => agDelete g.id

/-- `delete_unmatched_quantities` (`space.py` lines 2731-2760): no transaction. -/
def deleteUnmatchedQuantities (s : Store) : Store × Except Err Unit :=
  match runAuto (s.nonmatchingLocs.map fun l => locDelete l.id) s with
  | (s', .error e) => (s', .error e)
  | (s', .ok _) =>
    runAuto ((s'.agroups.filter fun g => !s'.quants.any fun q => q.ag == g.id).map
      fun g => agDelete g.id) s'

end Toron.Space

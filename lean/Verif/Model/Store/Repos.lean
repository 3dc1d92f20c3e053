/-
Repository operations (`src/toron/dal1/repositories.py`): one SQL statement each, with the constraints
of `src/toron/dal1/schema.py` lines 121-339.
-/
import Verif.Model.Store.Tables

namespace Toron.Space

open Toron.Selectors (PyStr Sel startsWith)

/-! ### label_index -/

/-- `IndexRepository.add` (`repositories.py` lines 44-53). `IntegrityError` becomes `ValueError`:
the CHECK `!= ''` and the UNIQUE index on the label columns (`schema.py` lines 275, 310-313). The id comes
from AUTOINCREMENT. -/
def indexAdd (labels : List PyStr) : M Nat := do
  let s ← get
  if labels.length ≠ s.cols.length ∨ labels = [] then
    throw (.operationalError "label_index: wrong number of values")
  else if [] ∈ labels then throw (.valueError "label_index: CHECK")
  else if labels ∈ s.index.map (·.labels) then throw (.valueError "label_index: UNIQUE")
  else do
    put { s with index := s.index ++ [⟨s.seq + 1, labels⟩], seq := s.seq + 1 }
    return s.seq + 1

/-- `IndexRepository.get` (`repositories.py` lines 55-66). -/
def indexGet (id : Nat) : M IndexRec := do
  match (← get).index.find? (fun r => r.id == id) with
  | some r => return r
  | none => throw (.keyError "no index with id")

/-- A name that SQLite reads as an identifier without quotes: letters, digits, `_`, `$` and non-ASCII
characters, not beginning with a digit or `$`. (That some such names are SQL keywords is not modelled.) -/
def bareOk (name : PyStr) : Bool :=
  let word (c : Char) : Bool :=
    decide (('a' ≤ c ∧ c ≤ 'z') ∨ ('A' ≤ c ∧ c ≤ 'Z') ∨ c = '_' ∨ 127 < c.toNat)
  let more (c : Char) : Bool := word c || decide (('0' ≤ c ∧ c ≤ '9') ∨ c = '$')
  match name with
  | [] => false
  | c :: cs => word c && cs.all more

/-- `IndexRepository.update` (`repositories.py` lines 68-78): the column names are not quoted (line 71);
the trigger on the undefined record (`schema.py` lines 324-330), CHECK and UNIQUE. -/
def indexUpdate (r : IndexRec) : M Unit := do
  let s ← get
  if !s.cols.all bareOk then throw (.operationalError "unquoted column name")
  else if r.labels.length ≠ s.cols.length ∨ r.labels = [] then
    throw (.operationalError "label_index: wrong number of values")
  else if ¬ (s.index.any fun x => x.id == r.id) then pure ()
  else if r.id = 0 then throw (.integrityError "cannot modify undefined record")
  else if [] ∈ r.labels then throw (.integrityError "label_index: CHECK")
  else if s.index.any (fun x => x.id != r.id && x.labels == r.labels) then
    throw (.integrityError "label_index: UNIQUE")
  else put { s with index := s.index.map fun x => if x.id = r.id then r else x }

/-- `IndexRepository.delete` (`repositories.py` lines 80-84); the trigger on the undefined record
(`schema.py` lines 333-339). -/
def indexDelete (id : Nat) : M Unit := do
  let s ← get
  if id = 0 ∧ s.index.any (fun x => x.id == 0) then
    throw (.integrityError "cannot delete undefined record")
  else put { s with index := s.index.filter fun x => x.id != id }

/-- One predicate `"k"=?` of a WHERE clause over label columns (`repositories.py` lines 152, 174). Column
names are compared without regard to ASCII case; a quoted name that is no column is read by SQLite
as a string literal, so the predicate compares `k` itself with the value. (Keys naming the id
column or the rowid are not modelled.) -/
def criterionHolds (cols labels : List PyStr) (kv : PyStr × PyStr) : Bool :=
  match (cols.zip labels).find? (fun cl => asciiLower cl.1 == asciiLower kv.1) with
  | some cl => cl.2 == kv.2
  | none => kv.1 == kv.2

/-- The WHERE clause built from `criteria`. -/
def matchesCriteria (cols : List PyStr) (criteria : List (PyStr × PyStr)) (labels : List PyStr) :
    Bool :=
  criteria.all (criterionHolds cols labels)

/-- `filter_by_label` and `filter_index_ids_by_label` (`repositories.py` lines 142-184). (SQLite does
not promise an order here; the model lists the records in id order.) -/
def Store.filterByLabel (s : Store) (criteria : List (PyStr × PyStr)) (includeUndefined : Bool := true) :
    List IndexRec :=
  s.index.filter fun r => matchesCriteria s.cols criteria r.labels && (includeUndefined || r.id != 0)

/-- `filter_by_label` with all label columns as criteria: the records with exactly these labels. -/
def Store.findByLabels (s : Store) (labels : List PyStr) : Option IndexRec :=
  s.index.find? fun r => r.labels == labels

/-- `find_all_index_ids(ordered=True)` (`repositories.py` lines 101-109). -/
def Store.indexIds (s : Store) : List Nat :=
  sortedBy (fun a b => decide (a ≤ b)) (s.index.map (·.id))

/-! ### label_location and quantity -/

/-- `LocationRepository.find_by_label` with all columns given, then `next` (`repositories.py` lines
255-267, `data_models.py` line 489). -/
def Store.findLoc (s : Store) (labels : List PyStr) : Option LocRec :=
  s.locs.find? fun r => r.labels == labels

/-- `LocationRepository.add` (`repositories.py` lines 206-211), UNIQUE (`schema.py` lines 314-317). -/
def locAdd (labels : List PyStr) : M Unit := do
  let s ← get
  if labels.length ≠ s.cols.length ∨ labels = [] then
    throw (.operationalError "label_location: wrong number of values")
  else if labels ∈ s.locs.map (·.labels) then throw (.integrityError "label_location: UNIQUE")
  else put { s with locs := s.locs ++ [⟨nextId (s.locs.map (·.id)), labels⟩] }

/-- `LocationRepository.delete_and_cascade` (`repositories.py` lines 238-242): the cascade of `quantity`
(`schema.py` line 173) needs foreign keys to be on. -/
def locDelete (id : Nat) : M Unit := modify fun s =>
  { s with locs := s.locs.filter (fun x => x.id != id),
           quants := if s.fk then s.quants.filter (fun q => q.loc != id) else s.quants }

/-- `get_by_labels_add_if_missing` (`data_models.py` lines 471-495). `find_by_label` raises if there
are no columns. -/
def locGetOrAdd (labels : List PyStr) : M LocRec := do
  let s ← get
  if labels.length ≠ s.cols.length then throw (.valueError "requires all label columns")
  else if s.cols = [] then throw (.valueError "find_by_label requires at least 1 criteria")
  else match s.findLoc labels with
    | some r => return r
    | none => do
      locAdd labels
      match (← get).findLoc labels with
      | some r => return r
      | none => throw (.exception "StopIteration")

/-- The canonical form of a dictionary: items sorted by key (`json_dumps(..., sort_keys=True)`,
`repositories.py` line 566). -/
def canonAttrs (a : Attrs) : Attrs :=
  sortedBy (fun x y => decide (x.1.map Char.toNat ≤ y.1.map Char.toNat)) a

/-- `AttributeGroupRepository.add` (`repositories.py` lines 559-566). -/
def agAdd (attrs : Attrs) : M Unit := do
  let s ← get
  if attrs.any (fun kv => kv.1.isEmpty || kv.2.isEmpty) then
    throw (.valueError "keys and values cannot be empty")
  else if canonAttrs attrs ∈ s.agroups.map (·.attrs) then
    throw (.integrityError "attribute_group: UNIQUE")
  else put { s with agroups := s.agroups ++ [⟨nextId (s.agroups.map (·.id)), canonAttrs attrs⟩] }

/-- `get_by_value` (`repositories.py` lines 601-610), as an option. -/
def Store.findAg (s : Store) (attrs : Attrs) : Option AGroup :=
  s.agroups.find? fun g => g.attrs == canonAttrs attrs

/-- `get_by_value_add_if_missing` (`data_models.py` lines 879-888). -/
def agGetOrAdd (attrs : Attrs) : M AGroup := do
  match (← get).findAg attrs with
  | some g => return g
  | none => do
    agAdd attrs
    match (← get).findAg attrs with
    | some g => return g
    | none => throw (.keyError "no attribute group matching")

/-- `AttributeGroupRepository.delete_and_cascade` (`repositories.py` lines 595-599). -/
def agDelete (id : Nat) : M Unit := modify fun s =>
  { s with agroups := s.agroups.filter (fun x => x.id != id),
           quants := if s.fk then s.quants.filter (fun q => q.ag != id) else s.quants }

/-- `QuantityRepository.add` (`repositories.py` lines 657-663): foreign keys (immediate) and UNIQUE
(`schema.py` lines 173-175). -/
def quantAdd (loc ag : Nat) (value : ℚ) : M Unit := do
  let s ← get
  if s.fk ∧ ¬ ((s.locs.any fun x => x.id == loc) ∧ (s.agroups.any fun x => x.id == ag)) then
    throw (.integrityError "quantity: FOREIGN KEY")
  else if s.quants.any (fun q => q.loc == loc && q.ag == ag) then
    throw (.integrityError "quantity: UNIQUE")
  else put { s with quants := s.quants ++ [⟨nextId (s.quants.map (·.id)), loc, ag, value⟩] }

/-- `get_by_location_id_and_attribute_group_id` (`repositories.py` lines 694-711), as an option. -/
def Store.findQuant (s : Store) (loc ag : Nat) : Option Quant :=
  s.quants.find? fun q => q.loc == loc && q.ag == ag

/-- `QuantityRepository.update` (`repositories.py` lines 676-686), changing the value only. -/
def quantSetValue (id : Nat) (value : ℚ) : M Unit := modify fun s =>
  { s with quants := s.quants.map fun q => if q.id = id then { q with value := value } else q }

/-- `QuantityRepository.delete` (`repositories.py` lines 688-692). -/
def quantDelete (id : Nat) : M Unit := modify fun s =>
  { s with quants := s.quants.filter fun q => q.id != id }

/-! ### weight_group and weight -/

/-- `WeightGroupRepository.get_by_name` (`repositories.py` lines 381-393), as an option. -/
def Store.findWGroup (s : Store) (name : PyStr) : Option WGroup :=
  s.wgroups.find? fun g => g.name == name

/-- `WeightGroupRepository.get_by_name`, raising. -/
def wgroupGetByName (name : PyStr) : M WGroup := do
  match (← get).findWGroup name with
  | some g => return g
  | none => throw (.keyError "no weight group named")

/-- `WeightGroupRepository.add` (`repositories.py` lines 348-366), UNIQUE (`schema.py` line 149). -/
def wgroupAdd (name : PyStr) (selectors : List Sel) (complete : Bool) : M Unit := do
  let s ← get
  if s.wgroups.any (fun g => g.name == name) then throw (.integrityError "weight_group: UNIQUE")
  else put { s with
    wgroups := s.wgroups ++ [⟨nextId (s.wgroups.map (·.id)), name, selectors, complete⟩] }

/-- `WeightGroupRepository.update` (`repositories.py` lines 400-418). -/
def wgroupUpdate (g : WGroup) : M Unit := do
  let s ← get
  if ¬ (s.wgroups.any fun x => x.id == g.id) then pure ()
  else if s.wgroups.any (fun x => x.id != g.id && x.name == g.name) then
    throw (.integrityError "weight_group: UNIQUE")
  else put { s with wgroups := s.wgroups.map fun x => if x.id = g.id then g else x }

/-- `WeightGroupRepository.delete_and_cascade` (`repositories.py` lines 420-424). -/
def wgroupDelete (id : Nat) : M Unit := modify fun s =>
  { s with wgroups := s.wgroups.filter (fun x => x.id != id),
           weights := if s.fk then s.weights.filter (fun w => w.group != id) else s.weights }

/-- `get_by_weight_group_id_and_index_id` (`repositories.py` lines 501-524), as an option. -/
def Store.findWeight (s : Store) (group index : Nat) : Option Weight :=
  s.weights.find? fun w => w.group == group && w.index == index

/-- `WeightRepository.add` (`repositories.py` lines 432-460). -/
def weightAdd (group index : Nat) (value : ℚ) : M Unit := do
  let s ← get
  if index = 0 then throw (.valueError "cannot assign weight to the undefined record")
  else if value < 0 then throw (.valueError "value cannot be negative")
  else if s.weights.any (fun w => w.group == group && w.index == index) then
    throw (.valueError "a weight already exists")
  else if s.fk ∧ ¬ (s.wgroups.any fun g => g.id == group) then
    throw (.valueError "no group or index matching")
  else put { s with weights := s.weights ++ [⟨nextId (s.weights.map (·.id)), group, index, value⟩] }

/-- `WeightRepository.update` (`repositories.py` lines 476-490); all callers change the value only. -/
def weightSetValue (id : Nat) (value : ℚ) : M Unit := do
  let s ← get
  if value < 0 then throw (.valueError "value cannot be negative")
  else put { s with
    weights := s.weights.map fun w => if w.id = id then { w with value := value } else w }

/-- `WeightRepository.delete` (`repositories.py` lines 492-496). -/
def weightDelete (id : Nat) : M Unit := modify fun s =>
  { s with weights := s.weights.filter fun w => w.id != id }

/-- `weight_group_is_complete` (`repositories.py` lines 534-551). -/
def Store.wgroupIsComplete (s : Store) (group : Nat) : Bool :=
  s.index.all fun r => r.id == 0 || s.weights.any (fun w => w.group == group && w.index == r.id)

/-! ### link and mapping -/

/-- `LinkRepository.add` (`repositories.py` lines 803-846), the two UNIQUE constraints (`schema.py` lines
194-195). -/
def linkAdd (l : Link) : M Unit := do
  let s ← get
  if s.links.any (fun x => x.other == l.other && (x.name == l.name || (x.isDefault && l.isDefault))) then
    throw (.integrityError "link: UNIQUE")
  else put { s with links := s.links ++ [{ l with id := nextId (s.links.map (·.id)) }] }

/-- `LinkRepository.update` (`repositories.py` lines 896-924). -/
def linkUpdate (l : Link) : M Unit := do
  let s ← get
  if ¬ (s.links.any fun x => x.id == l.id) then pure ()
  else if s.links.any (fun x => x.id != l.id && x.other == l.other &&
      (x.name == l.name || (x.isDefault && l.isDefault))) then
    throw (.integrityError "link: UNIQUE")
  else put { s with links := s.links.map fun x => if x.id = l.id then l else x }

/-- `LinkRepository.delete_and_cascade` (`repositories.py` lines 926-930), cascade `schema.py` line 207. -/
def linkDelete (id : Nat) : M Unit := modify fun s =>
  { s with links := s.links.filter (fun x => x.id != id),
           maps := if s.fk then s.maps.filter (fun m => m.link != id) else s.maps }

/-- CHECK constraints of `mapping` (`schema.py` lines 204-206). -/
def mappingCheck (m : Mapping) : Bool :=
  decide (0 ≤ m.value) &&
  (match m.prop with
    | none => true
    | some p => decide (0 ≤ p ∧ p ≤ 1)) &&
  !(m.other == 0 && m.index == 0)

/-- `MappingRepository.add` (`repositories.py` lines 985-1024). `level = none` stands for any value
that is not `bytes`. -/
def mappingAdd (link : Nat) (other : Int) (index : Nat) (level : Option (List Byte)) (value : ℚ)
    (prop : Option ℚ) : M Unit := do
  let s ← get
  if other = 0 ∧ index = 0 then throw (.valueError "undefined-to-undefined")
  else match level with
    | none => throw (.typeError "mapping_level must be bytes")
    | some level =>
      let m : Mapping := ⟨nextId (s.maps.map (·.id)), link, other, index, level, value, prop⟩
      if !mappingCheck m then throw (.integrityError "mapping: CHECK")
      else if s.maps.any (fun x => x.link == link && x.other == other && x.index == index &&
          x.level == level) then throw (.integrityError "mapping: UNIQUE")
      else if s.fk ∧ ¬ (s.links.any fun l => l.id == link) then
        throw (.integrityError "mapping: FOREIGN KEY")
      else put { s with maps := s.maps ++ [m] }

/-- `MappingRepository.update` (`repositories.py` lines 1084-1106). -/
def mappingUpdate (m : Mapping) : M Unit := do
  let s ← get
  if ¬ (s.maps.any fun x => x.id == m.id) then pure ()
  else if !mappingCheck m then throw (.integrityError "mapping: CHECK")
  else if s.maps.any (fun x => x.id != m.id && x.link == m.link && x.other == m.other &&
      x.index == m.index && x.level == m.level) then throw (.integrityError "mapping: UNIQUE")
  else if s.fk ∧ ¬ (s.links.any fun l => l.id == m.link) then
    throw (.integrityError "mapping: FOREIGN KEY")
  else put { s with maps := s.maps.map fun x => if x.id = m.id then m else x }

/-- `MappingRepository.delete` (`repositories.py` lines 1133-1137). -/
def mappingDelete (id : Nat) : M Unit := modify fun s =>
  { s with maps := s.maps.filter fun m => m.id != id }

/-- `find_distinct_other_index_ids(link_id, ordered=True)` (`repositories.py` lines 1139-1160): 0 first,
then the distinct positive ids in ascending order. -/
def Store.distinctOthers (s : Store) (link : Nat) : List Int :=
  0 :: sortedBy (fun a b => decide (a ≤ b))
    (distinct ((s.maps.filter (fun m => m.link == link && decide (0 < m.other))).map (·.other)))

/-- `mapping_is_complete` (`repositories.py` lines 1210-1227). -/
def Store.mappingIsComplete (s : Store) (link : Nat) : Bool :=
  s.index.all fun r => r.id == 0 || s.maps.any (fun m => m.link == link && m.index == r.id)

/-- `find(link_id=…, other_index_id=…)` (`repositories.py` lines 1162-1192). -/
def Store.findMaps (s : Store) (link : Nat) (other : Int) : List Mapping :=
  s.maps.filter fun m => m.link == link && m.other == other

/-- `find(link_id=…, other_index_id=…, index_id=…)`, then `next`. -/
def Store.findMap (s : Store) (link : Nat) (other : Int) (index : Nat) : Option Mapping :=
  s.maps.find? fun m => m.link == link && m.other == other && m.index == index

end Toron.Space

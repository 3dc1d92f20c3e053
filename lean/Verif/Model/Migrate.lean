/-
Model of the schema migrations (`src/toron/dal1/migrations.py`), statement by statement, over the tables
of a file of any version. The tables of schema 0.2.0 are those the migration steps read
(`migrations.py` lines 39-53, 83-95, 119-128, 138-140, and `tests/dal1/test_migrations.py`
`FULL_NODE_SCHEMA_V_020`).

Simplifications: the three label tables are renamed together and share one list of label columns
(as `schema.py` lines 301-303 assume); integer overflow in `SUM` is not modelled; the table `weight` has no
NULL references; attribute and domain values are strings; a file with table `quantity` of one version
and a version property of another one is not represented.
-/
import Verif.Model.Store.Service

namespace Toron.Migrate

open Toron.Selectors (PyStr)
open Toron.Space

/-- The property `toron_schema_version`, with or without JSON quotes (`migrations.py` lines 243, 268,
276). -/
inductive Version where
  | v020
  | v030
  | v031
  | other (text : PyStr)
  deriving DecidableEq, Repr

/-- A value in column `quantity_value NUMERIC NOT NULL` of schema 0.2.0, which has no CHECK: a number, or
a text with the number that SQLite's `SUM` makes of it (its leading number, or zero). -/
inductive OldVal where
  | num (q : ℚ)
  | text (t : PyStr) (leading : ℚ)
  deriving DecidableEq, Repr

/-- What `SUM` adds for a value. -/
def OldVal.amount : OldVal → ℚ
  | .num q => q
  | .text _ q => q

/-- A row of table `quantity` of schema 0.2.0; the references may be NULL and pairs may repeat. -/
structure OldQuant where
  id : Nat
  loc : Option Nat
  ag : Option Nat
  value : OldVal
  deriving DecidableEq, Repr

/-- A row of table `relation` of schema 0.2.0; the references and the level may be NULL. -/
structure OldRel where
  id : Nat
  link : Option Nat
  other : Int
  index : Option Nat
  level : Option (List Byte)
  value : ℚ
  prop : Option ℚ
  deriving DecidableEq, Repr

/-- The label tables: index records, locations and structure, with `sqlite_sequence` of the first. -/
structure Labels where
  cols : List PyStr
  index : List IndexRec
  seq : Nat
  locs : List LocRec
  structs : List StructRec
  deriving DecidableEq

/-- The property `domain`: a JSON object in schema 0.2.0, a JSON string later. -/
inductive Domain where
  | obj (items : List (PyStr × PyStr))
  | str (s : PyStr)
  deriving DecidableEq, Repr

/-- The tables and properties of a file. A table that may be missing is an `Option`. -/
structure FileDb where
  version : Option Version
  /-- `node_index`, `location`, `structure` -/
  nodeIndex : Option Labels
  /-- `label_index`, `label_location`, `label_structure` -/
  labelIndex : Option Labels
  crosswalk : Option (List Link)
  newLink : Option (List Link)
  link : Option (List Link)
  relation : Option (List OldRel)
  newMapping : Option (List Mapping)
  mapping : Option (List Mapping)
  /-- `quantity` as in schema 0.2.0 -/
  oldQuantity : Option (List OldQuant)
  newQuantity : Option (List Quant)
  /-- `quantity` as in schema 0.3.0 -/
  quantity : Option (List Quant)
  wgroups : List WGroup
  weights : List Weight
  agroups : List AGroup
  indexHash : List Nat
  domain : Option Domain
  regAttrs : Option (List PyStr)
  /-- property `discrete_categories` -/
  categories : Option (List (Finset PyStr))
  /-- property `partition_definitions` -/
  partDefs : Option (List (Finset PyStr))
  display : Option (List PyStr)
  defaultWG : Option (Option Nat)
  uid : PyStr
  userProps : Option PyStr
  created : Option PyStr
  /-- the unique label indexes and the triggers exist -/
  constraints : Bool

/-- One SQL statement: it changes the tables or fails. -/
abbrev Stmt := FileDb → Except Err FileDb

/-! ### Step 1: `crosswalk` becomes `link` (`migrations.py` lines 19-57) -/

/-- `CREATE TABLE main.new_link` (lines 22-36). -/
def createNewLink : Stmt := fun d =>
  if d.newLink.isSome then .error (.operationalError "table new_link already exists")
  else .ok { d with newLink := some [] }

/-- The UNIQUE constraints of `link` (lines 34-35) and the primary key, for rows that are added to an
empty table. `is_default` is NULL or 1, and NULLs are distinct. -/
def linkKeysOk (ls : List Link) : Bool :=
  decide (ls.map (·.id)).Nodup && decide (ls.map fun l => (l.name, l.other)).Nodup &&
    decide ((ls.filter (·.isDefault)).map (·.other)).Nodup

/-- `INSERT INTO main.new_link SELECT … FROM main.crosswalk` (lines 39-53). -/
def copyLinks : Stmt := fun d =>
  match d.crosswalk, d.newLink with
  | some ls, some old =>
    if linkKeysOk (old ++ ls) then .ok { d with newLink := some (old ++ ls) }
    else .error (.integrityError "link: UNIQUE")
  | _, _ => .error (.operationalError "no such table: crosswalk")

/-- `DROP TABLE main.crosswalk` (line 56). Foreign keys are off, so that nothing cascades. -/
def dropCrosswalk : Stmt := fun d =>
  if d.crosswalk.isNone then .error (.operationalError "no such table: crosswalk")
  else .ok { d with crosswalk := none }

/-- `ALTER TABLE main.new_link RENAME TO link` (line 57). -/
def renameLink : Stmt := fun d =>
  if d.link.isSome then .error (.operationalError "table link already exists")
  else match d.newLink with
    | none => .error (.operationalError "no such table: new_link")
    | some ls => .ok { d with newLink := none, link := some ls }

/-! ### Step 2: `relation` becomes `mapping` (`migrations.py` lines 59-99) -/

/-- `CREATE TABLE main.new_mapping` (lines 64-78). -/
def createNewMapping : Stmt := fun d =>
  if d.newMapping.isSome then .error (.operationalError "table new_mapping already exists")
  else .ok { d with newMapping := some [] }

/-- `WHERE NOT (other_index_id = 0 AND index_id = 0)` (line 94) in three-valued logic: with a NULL
`index_id` the row is kept only if `other_index_id` is not 0. -/
def relKept (r : OldRel) : Bool :=
  r.other != 0 || (match r.index with
    | none => false
    | some i => i != 0)

/-- The selected row (lines 85-92) as a row of `new_mapping`; `none` if a NOT NULL constraint fails. -/
def relRow (whole : List Byte) (r : OldRel) : Option Mapping :=
  match r.link, r.index with
  | some l, some i => some ⟨r.id, l, r.other, i, r.level.getD whole, r.value, r.prop⟩
  | _, _ => none

/-- The keys of `mapping` (line 77 and the primary key). -/
def mapKeysOk (ms : List Mapping) : Bool :=
  decide (ms.map (·.id)).Nodup &&
    decide (ms.map fun m => (m.link, m.other, m.index, m.level)).Nodup

/-- `INSERT INTO main.new_mapping SELECT … FROM main.relation WHERE …` (lines 83-95). -/
def copyMappings (whole : List Byte) : Stmt := fun d =>
  match d.relation, d.newMapping with
  | some rs, some old =>
    match (rs.filter relKept).mapM (relRow whole) with
    | none => .error (.integrityError "mapping: NOT NULL")
    | some ms =>
      if ms.all mappingCheck && mapKeysOk (old ++ ms) then
        .ok { d with newMapping := some (old ++ ms) }
      else .error (.integrityError "mapping: CHECK or UNIQUE")
  | _, _ => .error (.operationalError "no such table: relation")

/-- `DROP TABLE main.relation` (line 98). -/
def dropRelation : Stmt := fun d =>
  if d.relation.isNone then .error (.operationalError "no such table: relation")
  else .ok { d with relation := none }

/-- `ALTER TABLE main.new_mapping RENAME TO mapping` (line 99). -/
def renameMapping : Stmt := fun d =>
  if d.mapping.isSome then .error (.operationalError "table mapping already exists")
  else match d.newMapping with
    | none => .error (.operationalError "no such table: new_mapping")
    | some ms => .ok { d with newMapping := none, mapping := some ms }

/-! ### Step 3: one quantity per location and attribute group (`migrations.py` lines 102-132) -/

/-- `CREATE TABLE main.new_quantity` (lines 105-115). -/
def createNewQuantity : Stmt := fun d =>
  if d.newQuantity.isSome then .error (.operationalError "table new_quantity already exists")
  else .ok { d with newQuantity := some [] }

/-- The rows of the group of `q`: `GROUP BY _location_id, attribute_group_id` (line 127; two NULLs are
in the same group). -/
def sameGroup (qs : List OldQuant) (q : OldQuant) : List OldQuant :=
  qs.filter fun x => x.loc == q.loc && x.ag == q.ag

/-- `MIN(quantity_id)` of a group that contains `q` (line 122). -/
def minId (q : OldQuant) (group : List OldQuant) : Nat := group.foldl (fun n x => min n x.id) q.id

/-- The row selected for the group of `q` (lines 121-125); `none` if a NOT NULL constraint fails. -/
def groupRow (qs : List OldQuant) (q : OldQuant) : Option Quant :=
  match q.loc, q.ag with
  | some l, some a =>
    some ⟨minId q (sameGroup qs q), l, a, ((sameGroup qs q).map (·.value.amount)).sum⟩
  | _, _ => none

/-- The first row of each group. -/
def firsts : List OldQuant → List OldQuant → List OldQuant
  | _, [] => []
  | seen, q :: qs =>
    if seen.any (fun x => x.loc == q.loc && x.ag == q.ag) then firsts seen qs
    else q :: firsts (q :: seen) qs

/-- `INSERT INTO main.new_quantity SELECT … GROUP BY …` (lines 119-128). -/
def copyQuantities : Stmt := fun d =>
  match d.oldQuantity, d.newQuantity with
  | some qs, some old =>
    match (firsts [] qs).mapM (groupRow qs) with
    | none => .error (.integrityError "quantity: NOT NULL")
    | some rows => .ok { d with newQuantity := some (old ++ rows) }
  | _, _ => .error (.operationalError "no such table: quantity")

/-- `DROP TABLE main.quantity` (line 131). -/
def dropQuantity : Stmt := fun d =>
  if d.oldQuantity.isNone then .error (.operationalError "no such table: quantity")
  else .ok { d with oldQuantity := none }

/-- `ALTER TABLE main.new_quantity RENAME TO quantity` (line 132). -/
def renameQuantity : Stmt := fun d =>
  if d.quantity.isSome then .error (.operationalError "table quantity already exists")
  else match d.newQuantity with
    | none => .error (.operationalError "no such table: new_quantity")
    | some qs => .ok { d with newQuantity := none, quantity := some qs }

/-! ### Step 4: label tables are renamed (`migrations.py` lines 135-140) -/

/-- The three `ALTER TABLE … RENAME` statements (lines 138-140). -/
def renameLabels : Stmt := fun d =>
  if d.labelIndex.isSome then .error (.operationalError "table label_index already exists")
  else match d.nodeIndex with
    | none => .error (.operationalError "no such table: node_index")
    | some t => .ok { d with nodeIndex := none, labelIndex := some t }

/-! ### Step 5: properties (`migrations.py` lines 143-197) -/

/-- `'_'.join(…)`. -/
def joinUnderscore : List PyStr → PyStr
  | [] => []
  | [x] => x
  | x :: xs => x ++ '_' :: joinUnderscore xs

/-- The key `'domain'`. -/
def domainKey : PyStr := ['d', 'o', 'm', 'a', 'i', 'n']

/-- The new text of the domain (lines 160-163). The keys of a dictionary are distinct, so that
`sorted(domain_dict.items())` sorts by key. -/
def domainText (items : List (PyStr × PyStr)) : PyStr :=
  match items with
  | [(k, v)] => if k = domainKey then v else k ++ '_' :: v
  | items => joinUnderscore ((canonAttrs items).map fun kv => kv.1 ++ '_' :: kv.2)

/-- Lines 146-170. Without a row for `domain` the UPDATE changes nothing. -/
def updateDomain : Stmt := fun d =>
  match d.domain with
  | none => .ok d
  | some (.obj items) => .ok { d with domain := some (.str (domainText items)) }
  | some (.str _) => .error (.exception "domain should be a JSON object")

/-- `sorted(set(chain.from_iterable(generator)))` (line 179). -/
def attributeKeys (gs : List AGroup) : List PyStr :=
  sortedBy (fun x y => decide (x.map Char.toNat ≤ y.map Char.toNat))
    ((gs.flatMap fun g => g.attrs.map (·.1)).dedup)

/-- `INSERT INTO main.property VALUES('registered_attributes', ?)` (lines 173-183). -/
def addRegistered : Stmt := fun d =>
  if d.regAttrs.isSome then .error (.integrityError "property: UNIQUE")
  else .ok { d with regAttrs := some (attributeKeys d.agroups) }

/-- `UPDATE main.property SET key='partition_definitions' WHERE key='discrete_categories'`
(lines 186-190). -/
def renameCategories : Stmt := fun d =>
  match d.categories with
  | none => .ok d
  | some c =>
    if d.partDefs.isSome then .error (.integrityError "property: UNIQUE")
    else .ok { d with categories := none, partDefs := some c }

/-- `UPDATE main.property SET value=… WHERE key='toron_schema_version'` (lines 193-197, 219-223). -/
def setVersion (v : Version) : Stmt := fun d => .ok { d with version := some v }

/-! ### 0.3.0 to 0.3.1 (`migrations.py` lines 204-223) -/

/-- `INSERT INTO main.property VALUES('user_properties', '{}')` (lines 207-209). -/
def addUserProps : Stmt := fun d =>
  if d.userProps.isSome then .error (.integrityError "property: UNIQUE")
  else .ok { d with userProps := some ['{', '}'] }

/-- `INSERT INTO main.property VALUES('created_date', ?)` (lines 212-215). -/
def addCreated (now : PyStr) : Stmt := fun d =>
  if d.created.isSome then .error (.integrityError "property: UNIQUE")
  else .ok { d with created := some now }

/-! ### Checks around the steps -/

/-- `drop_schema_constraints` (`schema.py` lines 342-354). -/
def dropConstraints : Stmt := fun d => .ok { d with constraints := false }

/-- `PRAGMA foreign_key_check` finds nothing (`schema.py` lines 152-208): every reference of `weight`,
`quantity` and `mapping` is to an existing row. -/
def refsOk (d : FileDb) : Bool :=
  (d.weights.all fun w => (d.wgroups.any fun g => g.id == w.group) &&
    (match d.labelIndex with
      | none => false
      | some t => t.index.any fun r => r.id == w.index)) &&
  ((d.quantity.getD []).all fun q => (d.agroups.any fun g => g.id == q.ag) &&
    (match d.labelIndex with
      | none => false
      | some t => t.locs.any fun r => r.id == q.loc)) &&
  ((d.mapping.getD []).all fun m => ((d.link.getD []).any fun l => l.id == m.link) &&
    (match d.labelIndex with
      | none => false
      | some t => t.index.any fun r => r.id == m.index))

/-- `verify_foreign_key_check` (`schema.py` lines 377-402). -/
def verifyRefs : Stmt := fun d =>
  if refsOk d then .ok d else .error (.runtimeError "foreign key violations")

/-- The UNIQUE indexes over the label columns can be built (`schema.py` lines 306-319). -/
def labelsUnique (t : Labels) : Bool :=
  t.cols.isEmpty || (decide (t.index.map (·.labels)).Nodup && decide (t.locs.map (·.labels)).Nodup &&
    decide (t.structs.map (·.bits)).Nodup)

/-- `create_schema_constraints` (`schema.py` lines 290-339). -/
def createConstraints : Stmt := fun d =>
  match d.labelIndex with
  | none => .error (.operationalError "no such table: label_index")
  | some t =>
    if labelsUnique t then .ok { d with constraints := true }
    else .error (.integrityError "labels: UNIQUE")

/-! ### `apply_migrations` (`migrations.py` lines 230-290) -/

/-- What a program sends to the database. -/
inductive Cmd where
  | begin
  | stmt (f : Stmt)
  | commit

/-- A connection: the contents of the file and, inside a transaction, the changed contents that only
`COMMIT` writes to the file; the switch `PRAGMA foreign_keys`. -/
structure Conn where
  disk : FileDb
  tx : Option FileDb
  fk : Bool

/-- Run one command. A statement outside a transaction changes the file at once. -/
def exec (c : Conn) : Cmd → Except Err Conn
  | .begin =>
    if c.tx.isSome then .error (.operationalError "transaction within a transaction")
    else .ok { c with tx := some c.disk }
  | .stmt f => match c.tx with
    | some d => (f d).map fun d' => { c with tx := some d' }
    | none => (f c.disk).map fun d' => { c with disk := d' }
  | .commit => match c.tx with
    | some d => .ok { c with disk := d, tx := none }
    | none => .error (.operationalError "no transaction is active")

/-- Run commands until one fails. -/
def runCmds : List Cmd → Conn → Conn × Option Err
  | [], c => (c, none)
  | cmd :: cmds, c => match exec c cmd with
    | .ok c' => runCmds cmds c'
    | .error e => (c, some e)

/-- The "whole space" mapping level: one flag per label column (lines 254-256). A missing table
`node_index` has no columns, `[1] * -1` is empty. -/
def wholeLevel (d : FileDb) : List Byte := fullLevel ((d.nodeIndex.map (·.cols.length)).getD 0)

/-- Steps 1 to 5 for 0.2.0 (lines 270-274). -/
def steps020 (whole : List Byte) : List Stmt :=
  [createNewLink, copyLinks, dropCrosswalk, renameLink,
   createNewMapping, copyMappings whole, dropRelation, renameMapping,
   createNewQuantity, copyQuantities, dropQuantity, renameQuantity,
   renameLabels, updateDomain, addRegistered, renameCategories, setVersion .v030]

/-- The step for 0.3.0 (lines 275, 278). -/
def steps030 (now : PyStr) : List Stmt := [addUserProps, addCreated now, setVersion .v031]

/-- The steps for a version (lines 268-278). -/
def steps (v : Version) (whole : List Byte) (now : PyStr) : List Stmt :=
  match v with
  | .v020 => steps020 whole ++ steps030 now
  | .v030 => steps030 now
  | .v031 => []
  | .other _ => []

/-- The body of the `try` (lines 265-283). -/
def cmds (v : Version) (whole : List Byte) (now : PyStr) : List Cmd :=
  .begin :: .stmt dropConstraints :: ((steps v whole now).map .stmt ++
    [.stmt verifyRefs, .stmt createConstraints, .commit])

/-- The commands that `apply_migrations` sends for a file (empty if it stops before line 263). -/
def plan (d : FileDb) (ro : Bool) (now : PyStr) : List Cmd :=
  match d.version with
  | none => []
  | some .v031 => []
  | some v => if ro then [] else cmds v (wholeLevel d) now

/-- `apply_migrations(cursor, mode)` (lines 230-290); `ro` is `mode == 'ro'`, `now` is the current
date. Reading the version inside an open transaction reads the changed contents. -/
def applyMigrations (c : Conn) (ro : Bool) (now : PyStr) : Conn × Except Err Unit :=
  match (c.tx.getD c.disk).version with
  | none => (c, .error (.typeError "'NoneType' object is not subscriptable"))
  | some .v031 => (c, .ok ())
  | some v =>
    if ro then (c, .error (.exception "out of date, read-only mode"))
    else if c.tx.isSome then (c, .error (.runtimeError "inside an existing transaction"))
    else match runCmds (cmds v (wholeLevel c.disk) now) { c with fk := false } with
      | (c', none) => ({ c' with fk := true }, .ok ())
      | (c', some e) => ({ c' with tx := none, fk := true }, .error e)

/-- The file after a crash (of the process or the machine) when `k` commands of the migration have been
executed: the journal of an unfinished transaction is rolled back when the file is opened again. -/
def diskAfterCrash (d : FileDb) (fk : Bool) (ro : Bool) (now : PyStr) (k : Nat) : FileDb :=
  (runCmds ((plan d ro now).take k) ⟨d, none, fk⟩).1.disk

end Toron.Migrate

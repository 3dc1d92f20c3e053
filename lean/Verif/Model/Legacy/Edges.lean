/-
Model of the links of the legacy data access layer (`src/toron/_dal.py` lines 2558-2878, 3145-3218, `src/toron/_schema.py`
lines 86-117), which `xadd_edge` (`src/toron/graph.py` lines 713-751) makes.

The node is in memory, where foreign keys are checked (`_schema.py` line 84), and its records are given and do not change.
Floating-point values are rationals. Descriptions, file hints, hashes and mapping levels are left out, and so is
`get_incoming_edge`.
-/
import Verif.Model.Legacy.Disaggregate

namespace Toron.Legacy

open Toron.Selectors (PyStr Sel CaseMap Row parseSelector getMatchingKey)
open Toron.Space (Attrs nextId)

/-- A row of `edge` (`_schema.py` lines 86-104); no selectors are stored as NULL. -/
structure Link where
  id : Nat
  name : PyStr
  other : PyStr
  selectors : List PyStr
  complete : Bool
  isDefault : Bool
  deriving DecidableEq, Repr

/-- A row of `relation` (`_schema.py` lines 106-117). -/
structure Rel where
  link : Nat
  source : Nat
  index : Nat
  value : ℚ
  proportion : Option ℚ
  deriving DecidableEq, Repr

/-- The records of a node, its links and their relations. `stuck` means that a transaction is open on the connection. -/
structure Links where
  index : List Nat
  links : List Link
  rels : List Rel
  stuck : Bool
  deriving DecidableEq

/-- A node with the given records and no links. -/
def Links.new (index : List Nat) : Links := ⟨index, [], [], false⟩

/-- `UPDATE main.edge SET is_default=CASE WHEN name=:name THEN 1 ELSE NULL END WHERE other_unique_id=:unique_id` (`_dal.py`
lines 2605-2609, 2866-2870): the rows are changed one after the other, and `UNIQUE (is_default, other_unique_id)` is checked
for each of them. -/
def setDefault (other name : PyStr) : List Link → List Link → Except Err (List Link)
  | done, [] => .ok done
  | done, e :: rest =>
    if e.other = other then
      if e.name = name then
        if (done ++ rest).any (fun x => x.other == other && x.isDefault) then
          .error (.integrityError "UNIQUE constraint failed: edge.is_default, edge.other_unique_id")
        else setDefault other name (done ++ [{ e with isDefault := true }]) rest
      else setDefault other name (done ++ [{ e with isDefault := false }]) rest
    else setDefault other name (done ++ [e]) rest

/-- The flag of one row is set to the given value (`_dal.py` lines 2592-2602, 2611-2616, 2872-2876). -/
def clearDefault (other name : PyStr) (flag : Bool) (links : List Link) : List Link :=
  links.map fun e => if e.other = other ∧ e.name = name then { e with isDefault := flag } else e

/-- `_add_edge_get_new_id` (`_dal.py` lines 2558-2632): a new row, and the flag. -/
def addLink (other name : PyStr) (selectors : List PyStr) (makeDefault : Option Bool) (links : List Link) :
    Except Err (Nat × List Link) :=
  if links.any (fun e => e.other == other && e.name == name) then
    .error (.toronError "edge named … already exists between these nodes")
  else
    let id := nextId (links.map (·.id))
    let links := links ++ [⟨id, name, other, selectors, false, false⟩]
    match makeDefault with
    | none => .ok (id, clearDefault other name (decide ((links.filter fun e => e.other == other).length = 1)) links)
    | some true => (setDefault other name [] links).map fun l => (id, l)
    | some false => .ok (id, clearDefault other name false links)

/-- One `INSERT OR REPLACE INTO main.relation` (`_dal.py` lines 2646-2655). -/
def putRel (link : Nat) (rels : List Rel) (r : Nat × Nat × ℚ) : Except Err (List Rel) :=
  if r.2.2 < 0 then .error (.integrityError "CHECK constraint failed: relation_value")
  else .ok ((rels.filter fun x => !(x.link == link && x.source == r.1 && x.index == r.2.1)) ++
    [⟨link, r.1, r.2.1, r.2.2, none⟩])

/-- `_add_edge_relations` (`_dal.py` lines 2635-2659). -/
def addRels (link : Nat) (given : List (Nat × Nat × ℚ)) (rels : List Rel) : Except Err (List Rel) :=
  (given ++ [(0, 0, 0)]).foldlM (putRel link) rels

/-- The relations of a link from one source record. -/
def relsFrom (rels : List Rel) (link source : Nat) : List Rel := rels.filter fun x => x.link == link && x.source == source

/-- The proportion of a relation of the link (`_dal.py` lines 2672-2717). -/
def newProportion (rels : List Rel) (r : Rel) : ℚ :=
  if r.source = 0 then if r.index = 0 then 1 else 0
  else
    let group := relsFrom rels r.link r.source
    let total := (group.map (·.value)).sum
    if total = 0 then 1 / group.length else r.value / total

/-- `_refresh_proportions` (`_dal.py` lines 2661-2717). -/
def refreshRels (link : Nat) (rels : List Rel) : List Rel :=
  rels.map fun r => if r.link = link then { r with proportion := some (newProportion rels r) } else r

/-- `_refresh_is_locally_complete` (`_dal.py` lines 2753-2772). -/
def refreshLink (index : List Nat) (rels : List Rel) (link : Nat) (links : List Link) : List Link :=
  links.map fun e => if e.id = link then
    { e with complete := decide ((((rels.filter fun r => r.link == link).map (·.index)).dedup).length = index.length) } else e

/-- `add_incoming_edge` (`_dal.py` lines 2774-2832). `BEGIN` fails if a transaction is open (`_schema.py` lines 962-981). The
foreign key of `relation.index_id` is only checked by `COMMIT` (`_schema.py` line 115); if this fails, the transaction stays
open, as SQLite does not roll it back then. -/
def Links.add (other name : PyStr) (given : List (Nat × Nat × ℚ)) (selectors : List PyStr) (makeDefault : Option Bool)
    (l : Links) : Links × Except Err Unit :=
  if l.stuck then (l, .error (.operationalError "cannot start a transaction within a transaction"))
  else match addLink other name selectors makeDefault l.links with
    | .error e => (l, .error e)
    | .ok (id, links) => match addRels id given l.rels with
      | .error e => (l, .error e)
      | .ok rels =>
        let rels := refreshRels id rels
        let done : Links := ⟨l.index, refreshLink l.index rels id links, rels, false⟩
        if given.all fun r => decide (r.2.1 ∈ l.index) then (done, .ok ())
        else ({ done with stuck := true }, .error (.integrityError "FOREIGN KEY constraint failed"))

/-- The new selectors, if they are given (`_dal.py` lines 2846-2860). -/
def setSelectors (other name : PyStr) (selectors : Option (List PyStr)) (links : List Link) : List Link :=
  match selectors with
  | none => links
  | some s => links.map fun e => if e.other = other ∧ e.name = name then { e with selectors := s } else e

/-- `edit_incoming_edge` (`_dal.py` lines 2834-2878), with `none` for what is not given. -/
def Links.edit (other name : PyStr) (selectors : Option (List PyStr)) (isDefault : Option Bool) (l : Links) :
    Links × Except Err Unit :=
  if l.stuck then (l, .error (.operationalError "cannot start a transaction within a transaction"))
  else
    let links := setSelectors other name selectors l.links
    match isDefault with
    | none => ({ l with links := links }, .ok ())
    | some false => ({ l with links := clearDefault other name false links }, .ok ())
    | some true => match setDefault other name [] links with
      | .ok links => ({ l with links := links }, .ok ())
      | .error e => (l, .error e)

/-- The selectors of the complete links from a node (`_dal.py` lines 3174-3186). Links without selectors have NULL there, and
`parse_all(None)` raises. -/
def Links.selectorLists (other : PyStr) (l : Links) : Except Err (List (Nat × Option (List Sel))) :=
  (l.links.filter fun e => e.other == other && e.complete).mapM fun e =>
    if e.selectors = [] then .error (.typeError "'NoneType' object is not iterable")
    else match e.selectors.mapM parseSelector with
      | some sels => .ok (e.id, some sels)
      | none => .error (.exception "SelectorSyntaxError")

/-- What is looked up first (`_dal.py` lines 3163-3186): the default link, which has to be complete, and the selectors. -/
def Links.lookUp (other : PyStr) (l : Links) : Except Err (Nat × List (Nat × Option (List Sel))) :=
  match l.links.find? fun e => e.other == other && e.isDefault with
  | none => .error (.typeError "cannot unpack non-iterable NoneType object")
  | some d =>
    if d.complete then (l.selectorLists other).map fun sels => (d.id, sels)
    else .error (.runtimeError "default edge … is not complete")

/-- The rows for one quantity (`_dal.py` lines 3191-3208): one for each relation of the link, which is complete. -/
def Links.rowsFor (other : PyStr) (l : Links) (link : Nat) (q : Nat × Attrs × ℚ) : List Piece :=
  if l.links.any fun e => e.id == link && e.other == other && e.complete then
    (relsFrom l.rels link q.1).map fun r => ⟨r.index, q.2.1, q.2.2 * r.proportion.getD 0⟩
  else []

/-- What `XQuantityIterator` makes of rows (`_utils.py` lines 1102-1158): it adds up those with the same record and attributes.
Their order is not modelled. -/
def regroup (ps : List Piece) : List Piece :=
  ((ps.map fun p => (p.index, p.attrs)).dedup).map fun k =>
    ⟨k.1, k.2, ((ps.filter fun p => p.index == k.1 && p.attrs == k.2).map (·.value)).sum⟩

/-- `translate` (`_dal.py` lines 3145-3222). It works even if a transaction is open. -/
def Links.translate (cm : CaseMap) (other : PyStr) (data : List (Nat × Attrs × ℚ)) (l : Links) :
    Except Err (List Piece) :=
  match l.lookUp other with
  | .error e => .error e
  | .ok (d, sels) =>
    (data.mapM fun q => (getMatchingKey cm sels d q.2.1).map fun link => l.rowsFor other link q).map fun rows =>
      regroup rows.flatten

/-- A call that changes links. -/
inductive LinkOp where
  | add (other name : PyStr) (given : List (Nat × Nat × ℚ)) (selectors : List PyStr) (makeDefault : Option Bool)
  | edit (other name : PyStr) (selectors : Option (List PyStr)) (isDefault : Option Bool)

/-- One call. -/
def Links.step (l : Links) : LinkOp → Links × Except Err Unit
  | .add other name given selectors makeDefault => l.add other name given selectors makeDefault
  | .edit other name selectors isDefault => l.edit other name selectors isDefault

/-- Several calls, whether they fail or not. -/
def Links.run (ops : List LinkOp) (l : Links) : Links := ops.foldl (fun l op => (l.step op).1) l

end Toron.Legacy

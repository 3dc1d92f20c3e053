/-
The operations of a dataspace as data, and histories of operations.
-/
import Verif.Model.Store.Space

namespace Toron.Space

open Toron.Selectors (PyStr Sel)

/-- The public operations of `DataSpace` that change it (`src/toron/space.py`), and `reopen`: saving to
a file and opening that file (`to_file`, `read_file`, `bind_file`), after which the connection no
longer has foreign keys switched on (`dal1/data_connector.py` lines 466-560: the PRAGMA of
`schema.py` line 124 is executed only when a new database is created). -/
inductive Op where
  | addIndexColumns (names : List PyStr)
  | renameIndexColumns (mapping : List (PyStr × PyStr))
  | dropIndexColumns (names : List PyStr)
  | addPartitionDefs (defs : List (Finset PyStr))
  | addPartitionDef (d : Finset PyStr)
  | dropPartitionDefs (defs : List (Finset PyStr))
  | setRegisteredAttributes (attrs : List PyStr)
  | changeAttributeOrder (a : PyStr) (offset : Int)
  | changeLabelOrder (label : PyStr) (offset : Int)
  | setDomain (d : PyStr)
  | insertIndex (weights : Option (List PyStr)) (wcols : List PyStr) (pl pw : Policy)
      (rows : List IndexRow)
  | updateIndex (merge : Bool) (rows : List (Nat × List PyStr))
  | deleteIndex (t : Target (Nat × List PyStr))
  | setDefaultWeightGroup (g : Option Nat)
  | addWeightGroup (name : PyStr) (selectors : List Sel) (complete : Bool) (makeDefault : Option Bool)
  | editWeightGroup (name : PyStr) (newName : Option PyStr) (selectors : Option (List Sel))
      (complete : Option Bool)
  | dropWeightGroup (name : PyStr)
  | insertWeights (name : PyStr) (p : Policy) (rows : List WeightRow)
  | updateWeights (name : PyStr) (rows : List (Nat × List PyStr × ℚ))
  | deleteWeights (name : PyStr) (t : Target (Nat × List PyStr))
  | addLink (other : PyStr) (name : PyStr) (hint : Option PyStr) (selectors : List Sel)
      (isDefault : Option Bool) (otherHash : Option (List Int)) (complete : Bool)
  | editLink (ref : PyStr) (name : Option PyStr) (c : LinkChanges)
  | dropLink (ref : PyStr) (name : Option PyStr)
  | insertMappings2 (ref : PyStr) (name : Option PyStr) (rows : List MapRow)
  | insertMappings (ref : PyStr) (name : Option PyStr) (colsOk : Bool) (rows : List MapRow)
  | updateMappings (ref : PyStr) (name : Option PyStr) (colsOk : Bool) (rows : List MapRow)
  | deleteMappings (ref : PyStr) (name : Option PyStr) (colsOk : Bool) (t : Target MapRow)
  | reifyMappings (ref : PyStr) (name : Option PyStr) (cs : List (PyStr × PyStr))
  | insertQuantities2 (allowLabel allowPartition : Bool) (p : Policy) (rows : List QuantRow)
  | insertQuantities (attributes : List PyStr) (rows : List QuantRow)
  | deleteQuantitiesWithoutIndex
  | deleteUnmatchedQuantities
  | reopen

/-- The body of an operation that runs in one transaction (`none` for those that do not). -/
def Op.body : Op → Option (M Unit)
  | .addIndexColumns n => some (Space.addIndexColumns n)
  | .renameIndexColumns m => some (Space.renameIndexColumns m)
  | .dropIndexColumns n => some (Space.dropIndexColumns n)
  | .addPartitionDefs d => some (Space.opAddPartitionDefs d)
  | .addPartitionDef d => some (Space.opAddPartitionDef d)
  | .dropPartitionDefs d => some (Space.opDropPartitionDefs d)
  | .setRegisteredAttributes a => some (Space.setRegisteredAttributes a)
  | .changeAttributeOrder a o => some (Space.changeAttributeOrder a o)
  | .changeLabelOrder l o => some (Space.changeLabelOrder l o)
  | .setDomain d => some (Space.setDomain d)
  | .insertIndex w wc pl pw r => some (Space.insertIndex w wc pl pw r)
  | .updateIndex m r => some (Space.updateIndex m r)
  | .deleteIndex t => some (Space.deleteIndex t)
  | .setDefaultWeightGroup g => some (Space.setDefaultWeightGroup g)
  | .addWeightGroup n s c d => some (Space.addWeightGroup n s c d)
  | .editWeightGroup n m s c => some (Space.editWeightGroup n m s c)
  | .dropWeightGroup n => some (Space.dropWeightGroup n)
  | .insertWeights n p r => some (Space.insertWeights n p r)
  | .updateWeights n r => some (Space.updateWeights n r)
  | .deleteWeights n t => some (Space.deleteWeights n t)
  | .addLink o n h s d oh c => some (Space.addLink o n h s d oh c)
  | .editLink r n c => some (Space.editLink r n c)
  | .dropLink r n => some (Space.dropLink r n)
  | .insertMappings2 r n rows => some (Space.insertMappings2 r n rows)
  | .insertMappings r n c rows => some (Space.insertMappings r n c rows)
  | .updateMappings r n c rows => some (Space.updateMappings r n c rows)
  | .deleteMappings r n c t => some (Space.deleteMappings r n c t)
  | .reifyMappings .. => none
  | .insertQuantities2 al ap p rows => some (Space.insertQuantities2 al ap p rows)
  | .insertQuantities a rows => some (Space.insertQuantities a rows)
  | .deleteQuantitiesWithoutIndex => some Space.deleteQuantitiesWithoutIndex
  | .deleteUnmatchedQuantities => none
  | .reopen => none

/-- One call: the dataspace afterwards and the outcome. -/
def step (op : Op) (s : Store) : Store × Except Err Unit :=
  match op with
  | .reifyMappings r n cs => Space.reifyMappings r n cs s
  | .deleteUnmatchedQuantities => Space.deleteUnmatchedQuantities s
  | .reopen => ({ s with fk := false }, .ok ())
  | op => match op.body with
    | some m => runTx m s
    | none => (s, .ok ())

/-- A history of calls; calls that fail are part of it. -/
def run (ops : List Op) (s : Store) : Store := ops.foldl (fun s op => (step op s).1) s

/-- The dataspaces that can be made: a new dataspace after any history of calls. -/
def Reachable (s : Store) : Prop := ∃ uid ops, s = run ops (Store.new uid)

/-- The same for histories in which the dataspace is not reopened (foreign keys stay on). -/
def ReachableFk (s : Store) : Prop := ∃ uid ops, Op.reopen ∉ ops ∧ s = run ops (Store.new uid)

/-- Operations that rely on a cascade to take the mappings of a link or the weights of a group with them. -/
def Op.dropsOwner : Op → Bool
  | .dropLink .. => true
  | .dropWeightGroup .. => true
  | _ => false

/-- The same for histories that do not drop a link or a weight group after the dataspace was reopened. -/
def ReachableTidy (s : Store) : Prop :=
  ∃ uid ops, ops.Pairwise (fun a b => a = Op.reopen → b.dropsOwner = false) ∧ s = run ops (Store.new uid)

end Toron.Space

/-
Valid label combinations, and kinds of histories of column operations.
-/
import Verif.Model.Store.Ops
import Verif.Spec.Partitions

namespace Toron.Space

open Toron.Selectors (PyStr)

/-- The set of columns `d` is a valid combination: there is a row for it in the structure table. -/
def Store.Valid (s : Store) (d : Finset PyStr) : Prop :=
  d ⊆ s.cols.toFinset ∧ ∃ r ∈ s.structs, r.bits = s.cols.map fun c => decide (c ∈ d)

/-- The set of all label columns. -/
def Store.whole (s : Store) : Finset PyStr := s.cols.toFinset

/-- The stored partition definitions. -/
def Store.defs (s : Store) : List (Finset PyStr) := s.partDefs.getD []

/-- The call drops label columns. -/
def Op.dropsColumns : Op → Bool
  | .dropIndexColumns _ => true
  | _ => false

/-- The call renames label columns. -/
def Op.renamesColumns : Op → Bool
  | .renameIndexColumns _ => true
  | _ => false

/-- The call changes the display order. -/
def Op.ordersLabels : Op → Bool
  | .changeLabelOrder .. => true
  | _ => false

/-- Histories in which no column is dropped. -/
def ReachableKeeping (s : Store) : Prop :=
  ∃ uid ops, (∀ op ∈ ops, op.dropsColumns = false) ∧ s = run ops (Store.new uid)

/-- Histories in which columns are never renamed after columns have been dropped. -/
def ReachableOrderly (s : Store) : Prop :=
  ∃ uid ops, ops.Pairwise (fun a b => a.dropsColumns = true → b.renamesColumns = false) ∧
    s = run ops (Store.new uid)

/-- Histories in which columns are neither renamed nor dropped after the display order has been changed. -/
def ReachableShown (s : Store) : Prop :=
  ∃ uid ops, ops.Pairwise (fun a b => a.ordersLabels = true →
      b.renamesColumns = false ∧ b.dropsColumns = false) ∧
    s = run ops (Store.new uid)

end Toron.Space

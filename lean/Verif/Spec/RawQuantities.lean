/-
Conditions on the quantities of a legacy node.
-/
import Verif.Model.Legacy.RawQuantities
import Verif.Spec.Legacy

namespace Toron.Legacy

open Toron.Selectors (PyStr)
open Toron.Space (LocRec AGroup Quant Attrs)

/-- A key stands for a column of the node: the name that it is normalized to. -/
def Node.IsColumn (n : Node) (key col : PyStr) : Prop := normName key = .ok col ∧ col ∈ n.cols

/-- Labels and attributes meet a condition: the label in the column that the key stands for is the value; if it stands for no
column, the attribute is the value, where an attribute that is not there counts as empty. -/
def Node.Meets (n : Node) (labels : List PyStr) (attrs : Attrs) (key value : PyStr) : Prop :=
  (∀ col, n.IsColumn key col → (col, value) ∈ n.cols.zip labels) ∧
    ((¬ ∃ col, n.IsColumn key col) → (attrs.lookup key).getD [] = value)

/-- A quantity meets all conditions. -/
def Node.MeetsAll (n : Node) (cond : List (PyStr × PyStr)) (q : Quant) : Prop :=
  ∃ l ∈ n.locs, l.id = q.loc ∧ ∃ a ∈ n.attrs, a.id = q.ag ∧ ∀ kv ∈ cond, n.Meets l.labels a.attrs kv.1 kv.2

/-- The keys of the conditions can be normalized, to different names. -/
def KeysDiffer (cond : List (PyStr × PyStr)) : Prop :=
  ∃ names : List PyStr, List.Forall₂ (fun kv name => normName kv.1 = .ok name) cond names ∧ names.Nodup

end Toron.Legacy

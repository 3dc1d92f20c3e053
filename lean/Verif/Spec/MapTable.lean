/-
Tables for the legacy mapper.
-/
import Verif.Model.Legacy.MapTable
import Verif.Spec.Edge

namespace Toron.Legacy

open Toron.Selectors (PyStr)

/-- A row in words: the labels before the value, the value, the labels after it. -/
structure Line where
  left : List PyStr
  value : ℚ
  right : List PyStr

/-- The row as it stands in the table. -/
def Line.cells (l : Line) : List Cell := l.left.map .text ++ .number l.value :: l.right.map .text

/-- The rows with their numbers. -/
def numbered : Nat → List Line → List TableRow
  | _, [] => []
  | k, l :: ls => ⟨k, l.left, l.right, l.value⟩ :: numbered (k + 1) ls

/-- A header names the link: it is the name, or the shorthand for a link of this name. -/
def Names (link col : PyStr) : Prop := col = link ∨ ∃ e, Edge.EdgeOk e ∧ Edge.Trimmed e.name ∧ Edge.Trimmed e.file1 ∧
  Edge.Trimmed e.file2 ∧ Edge.Written e col ∧ e.name = link

/-- A header does not name the link, however it is read. -/
def Foreign (link col : PyStr) : Prop := col ≠ link ∧ ∀ e, Edge.EdgeOk e → Edge.Written e col → e.name ≠ link

end Toron.Legacy

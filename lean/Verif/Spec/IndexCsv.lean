/-
What is needed of a table with an index so that its columns can be told apart.
-/
import Verif.Model.IndexCsv

namespace Toron.IndexCsv

open Toron.Selectors (PyStr)
open Toron.Space
open Toron.IndexCode (isCode)
open Toron.MappingCsv (Table)

/-- Among the header and the first nine rows, no cell outside the first column is an index code, and no header is. -/
def Clear (uid : List Byte) (t : Table) : Prop :=
  (∀ h ∈ t.header, isCode h uid = .ok false) ∧ ∀ row ∈ t.rows.take 9, ∀ c ∈ row.tail, isCode c uid = .ok false

/-- Nothing among the header and the first nine rows is an index code. -/
def Foreign (uid : List Byte) (t : Table) : Prop :=
  (∀ h ∈ t.header, isCode h uid = .ok false) ∧ ∀ row ∈ t.rows.take 9, ∀ c ∈ row, isCode c uid = .ok false

/-- No weight group has the name of a column for labels or ids. -/
def PlainGroups (s : Store) : Prop := ∀ g ∈ s.wgroups, g.name ∉ s.cols ∧ g.name ≠ idName

/-- Both have the same label columns in the same order, and weight groups of the same names. -/
def SameLayout (s s' : Store) : Prop :=
  s'.cols = s.cols ∧ ∀ n, n ∈ s'.wgroups.map (·.name) ↔ n ∈ s.wgroups.map (·.name)

/-- The records other than the undefined one. -/
def defined (s : Store) : List IndexRec := s.index.filter fun r => r.id != 0

end Toron.IndexCsv

/-
How the rows of a table with mappings are to be read, and which written tables can be read again.
-/
import Verif.Model.MappingCsv

namespace Toron.MappingCsv

open Toron.Selectors (PyStr)
open Toron.IndexCode (isCode toId)

/-- The column is named like the link, or is a short form with the link's name. -/
def NamesLink (edge : PyStr → Option PyStr) (link c : PyStr) : Prop := c = link ∨ edge c = some link

/-- `v` is the first column that names the link. -/
def FirstLink (edge : PyStr → Option PyStr) (link : PyStr) (header : List PyStr) (v : Nat) : Prop :=
  (∃ c, header[v]? = some c ∧ NamesLink edge link c) ∧ ∀ j c, j < v → header[j]? = some c → ¬ NamesLink edge link c

/-- The row has an index code of the file in column `p`. -/
def HasCode (uid : List Byte) (row : List PyStr) (p : Nat) : Prop := ∃ c, row[p]? = some c ∧ isCode c uid = .ok true

/-- The label of a row under the given name, within the columns of a part: the cell there, or empty if the part
has no column of this name. -/
def LabelIs (header : List PyStr) (part : Nat × Nat) (row : List PyStr) (name label : PyStr) : Prop :=
  (∃ i, part.1 ≤ i ∧ i < part.2 ∧ header[i]? = some name ∧ row[i]? = some label) ∨
  (∀ i, part.1 ≤ i → i < part.2 → header[i]? ≠ some name) ∧ label = []

/-- The record of a row: none if there is no column of index codes or the cell is empty, otherwise the one that
the code stands for. -/
def IdIs (code : Option Nat) (uid : List Byte) (row : List PyStr) (id : Option Int) : Prop :=
  match code with
  | none => id = none
  | some p => ∃ c, row[p]? = some c ∧ (c = [] ∧ id = none ∨ c ≠ [] ∧ ∃ i, toId c uid = .ok i ∧ id = some i)

/-- The columns of one file in a table: its index codes are in the column `code`, or there are none and the
columns of the part are just the file's label columns. -/
structure PartOk (cols : List PyStr) (uid : List Byte) (t : Table) (v : Nat) (code : Option Nat) (part : Nat × Nat) :
    Prop where
  /-- No name occurs twice. -/
  unique : ∀ i j c, part.1 ≤ i → i < part.2 → part.1 ≤ j → j < part.2 → t.header[i]? = some c →
    t.header[j]? = some c → i = j
  /-- One of the first 256 rows has an index code in the column, which is in this part. -/
  found : ∀ p, code = some p → (∃ row ∈ t.rows.take 256, HasCode uid row p) ∧ (p < v → part = (0, v)) ∧
    (v < p → part = (v + 1, t.header.length))
  /-- If among the first 256 rows just one column has index codes, it is the one. -/
  only : ∀ p, (∃ row ∈ t.rows.take 256, HasCode uid row p) →
    (∀ row ∈ t.rows.take 256, ∀ q, HasCode uid row q → q = p) → code = some p
  /-- Without index codes the header has to be exact. -/
  exact : code = none → cols = (t.header.take part.2).drop part.1

/-- The line says what the row says. -/
structure Says (header cols1 cols2 : List PyStr) (u1 u2 : List Byte) (v : Nat) (code1 code2 : Option Nat)
    (part1 part2 : Nat × Nat) (row : List PyStr) (x : Line) : Prop where
  id1 : IdIs code1 u1 row x.id1
  labels1 : List.Forall₂ (LabelIs header part1 row) cols1 x.labels1
  id2 : IdIs code2 u2 row x.id2
  labels2 : List.Forall₂ (LabelIs header part2 row) cols2 x.labels2
  value : row[v]? = some x.value

/-- The columns of a written table can be told apart: the unique ids have different checksums, no column before
the link's one has the link's name, no name occurs twice on the same side, and no cell but those for index codes
looks like an index code. -/
structure Clear (edge : PyStr → Option PyStr) (u1 u2 : List Byte) (cols1 cols2 : List PyStr) (h1 h2 link : PyStr)
    (t : Table) : Prop where
  length : u1.length = u2.length
  ids : IndexCode.crc32 u1 ≠ IndexCode.crc32 u2
  names : ∀ c ∈ h1 :: cols1, ¬ NamesLink edge link c
  header1 : h1 ∉ cols1
  header2 : h2 ∉ cols2
  ambiguous : ambiguousHeader ∉ h2 :: cols2
  cells : ∀ row ∈ t.rows, ∀ p c, row[p]? = some c → p ≠ 0 → p ≠ cols1.length + 2 →
    isCode c u1 = .ok false ∧ isCode c u2 = .ok false

/-- Mappings can be read into the file: it has a default weight group, the combination of all its columns and that
of none of them are valid, and there are more records than may be matched. -/
structure Ready (s : Space.Store) (limit : Nat) : Prop where
  weights : ∃ g, s.getDefaultWG = .ok g
  whole : Space.fullLevel s.cols.length ∈ Mapper.levels s
  blank : [] ∈ Mapper.levels s
  limit : limit < s.index.length

end Toron.MappingCsv

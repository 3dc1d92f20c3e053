/-
What adding, correcting and deleting mappings row by row should do.
-/
import Verif.Spec.Bits
import Verif.Spec.Complete
import Verif.Spec.LinkHash

namespace Toron.Space

open Toron.Selectors (PyStr)
open Toron.Spec

/-- The level is missing, empty, or one of the valid combinations of label columns. -/
def Store.LevelFits (s : Store) : Option (List Byte) → Prop
  | none => True
  | some lv => lv = [] ∨ ∃ st ∈ s.structs, ∀ i, bitAt (bytesToBitstream lv) i = bitAt st.bits i

/-- The row is for a record: it has the id and the labels of the record and a level that fits. -/
def Store.Takes (s : Store) (row : MapRow) : Prop :=
  (⟨row.index, row.labels⟩ : IndexRec) ∈ s.index ∧ s.LevelFits row.level

open Classical in
/-- The rows that are for a record. -/
noncomputable def Store.taken (s : Store) (rows : List MapRow) : List MapRow := rows.filter fun row => s.Takes row

/-- The row can be stored: it has a level, the value is not negative, and it does not map the undefined record to the
undefined record. -/
def MapRow.Sound (row : MapRow) : Prop :=
  row.level ≠ none ∧ 0 ≤ row.value ∧ ¬ (row.other = 0 ∧ row.index = 0)

/-- What the row says. -/
def MapRow.content (row : MapRow) : Int × Nat × List Byte × ℚ := (row.other, row.index, row.level.getD [], row.value)

/-- Source record, record and level. -/
def MapRow.key (row : MapRow) : Int × Nat × List Byte := (row.other, row.index, row.level.getD [])

/-- The mappings of a link: source record, record, level, value. -/
def Store.rowsOf (s : Store) (link : Nat) : List (Int × Nat × List Byte × ℚ) :=
  (s.maps.filter fun m => m.link == link).map fun m => (m.other, m.index, m.level, m.value)

/-- The mappings of a link between two records: level, value. -/
def Store.between (s : Store) (link : Nat) (o : Int) (i : Nat) : List (List Byte × ℚ) :=
  (s.maps.filter fun m => m.link == link && m.other == o && m.index == i).map fun m => (m.level, m.value)

/-- The last of the rows for two records. -/
def newest (rows : List MapRow) (o : Int) (i : Nat) : Option MapRow :=
  (rows.filter fun row => row.other == o && row.index == i).getLast?

/-- The row names the mapping: it has the id and the labels of its record, its source record and its value, and the
mapping is exact (its level is that of all label columns). -/
def Store.Names (s : Store) (link : Nat) (row : MapRow) (m : Mapping) : Prop :=
  (⟨row.index, row.labels⟩ : IndexRec) ∈ s.index ∧ m.link = link ∧ m.other = row.other ∧ m.index = row.index ∧
    m.value = row.value ∧ m.level = fullLevel s.cols.length

/-- The mappings of the other links, with their proportions. -/
def Store.mapsOfOthers (s : Store) (link : Nat) : List Mapping := s.maps.filter fun m => m.link != link

open Classical in
/-- The link's fingerprint and its mark of completeness say what its mappings are now; nothing else is changed in any
link. -/
def LinkBrought (s s' : Store) (link : Nat) : Prop :=
  ∃ ids, s'.coveredIds link ids ∧ s'.links = s.links.map fun x =>
    if x.id = link then { x with otherHash := some ids, complete := decide (s'.linkReaches link) } else x

end Toron.Space

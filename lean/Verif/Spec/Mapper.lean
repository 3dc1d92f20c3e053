/-
What matching rows of mapping data with index records, and combining the matches, should give.
-/
import Verif.Model.Mapper
import Verif.Spec.Read

namespace Toron.Mapper

open Toron.Selectors (PyStr)
open Toron.Space

/-- The record `i` is one that the row means: the one it names, or one that has its labels. -/
def Side.Means (s : Store) (x : Side) (i : Nat) : Prop :=
  match x.id with
  | some j => i = j ∧ i ∈ s.ids
  | none => ∃ r ∈ s.index, r.id = i ∧ labelsMatch x.labels r.labels

/-- The row means exactly `n` records. -/
def Side.Count (s : Store) (x : Side) (n : Nat) : Prop :=
  ∃ l : List Nat, l.Nodup ∧ (∀ i, i ∈ l ↔ x.Means s i) ∧ l.length = n

/-- `w` is the weight of a record: the stored one in the group; zero for the undefined record, if none is stored;
otherwise none. -/
def IsWeight (s : Store) (g : WGroup) (i : Nat) (w : Option ℚ) : Prop :=
  (∀ x ∈ s.weights, x.group = g.id → x.index = i → w = some x.value) ∧
  ((∀ x ∈ s.weights, x.group = g.id → x.index ≠ i) → w = if i = 0 then some 0 else none)

/-- The matches of one row of mapping data. -/
def ofRun (ms : List Match) (run : Nat) : List Match := ms.filter fun m => decide (m.run = run)

/-- The matches of a row share it fairly: by weight, or equally if there is no weight but zero. -/
structure FairShares (ms : List Match) : Prop where
  sum : (ms.map fun m => m.prop.getD 0).sum = 1
  range : ∀ m ∈ ms, ∃ p, m.prop = some p ∧ 0 ≤ p ∧ p ≤ 1
  byWeight : (∃ m ∈ ms, ∃ w, m.weight = some w ∧ w ≠ 0) → ∀ m ∈ ms, ∃ w, m.weight = some w ∧
    m.prop = some (w / (ms.map fun x => x.weight.getD 0).sum)
  equal : (∀ m ∈ ms, ∀ w, m.weight = some w → w = 0) → ∀ m ∈ ms, m.prop = some (1 / (ms.length : ℚ))

/-- The proportion of a row that goes to the record. -/
def share (ms : List Match) (run i : Nat) : ℚ :=
  ((ms.filter fun m => decide (m.run = run ∧ m.index = i)).map fun m => m.prop.getD 0).sum

/-- The proportion of a row that goes to the record at the level. -/
def shareAt (ms : List Match) (run i : Nat) (level : List Byte) : ℚ :=
  ((ms.filter fun m => decide (m.run = run ∧ m.index = i ∧ m.level = level)).map fun m => m.prop.getD 0).sum

/-- The level `a` comes before `b` in the list of levels, finest first. -/
def Before (s : Store) (a b : List Byte) : Prop :=
  ∃ i j : Nat, i < j ∧ (levels s)[i]? = some a ∧ (levels s)[j]? = some b

/-- The level `a` belongs to a combination of columns that is at least as fine as that of `b`. -/
def AtLeastAsFine (s : Store) (a b : List Byte) : Prop :=
  ∃ x ∈ s.structs, ∃ y ∈ s.structs, (BitFlags.ofBits x.bits).bytes = a ∧ (BitFlags.ofBits y.bits).bytes = b ∧
    granGe x.gran y.gran = true

/-- The row is matched with the record. -/
def Matched (ms : List Match) (run i : Nat) : Prop := ∃ m ∈ ms, m.run = run ∧ m.index = i

/-- The value of a row of the result. -/
def OutRow.amount (x : OutRow) : ℚ := x.value.getD 0

/-- The mappings stored for a link: source record, target record, level, value. -/
def entries (s : Store) (link : Nat) : List (Int × Nat × List Byte × ℚ) :=
  (s.maps.filter fun m => m.link == link).map fun m => (m.other, m.index, m.level, m.value)

/-- A row of the result as a mapping. -/
def OutRow.entry (x : OutRow) : Int × Nat × List Byte × ℚ := (x.other, x.index, x.level, x.amount)

end Toron.Mapper

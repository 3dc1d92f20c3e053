/-
Where a value can go when it is translated from one dataspace to another, and on to a third one.
-/
import Verif.Spec.Reader

namespace Toron.Space

/-- Some link made for the present records of the source gives record `j` of the target a part of record `i`
of the source. -/
def Store.Sends (src trg : Store) (i j : Nat) : Prop :=
  ∃ l, trg.currentLink src l ∧ ∃ m ∈ trg.mapsFrom l.id (i : Int), m.index = j

/-- A part of record `i` of `src` can get to record `k` of `trg` by way of `mid`. What is at the undefined record
of `mid` stays undefined. -/
def Store.SendsVia (src mid trg : Store) (i k : Nat) : Prop :=
  ∃ j, src.Sends mid i j ∧ (j = 0 ∧ k = 0 ∨ j ≠ 0 ∧ mid.Sends trg j k)

/-- The total of a result for all records that `f` assigns to `k`, for an attribute set. -/
def Reader.amountOf (r : Reader) (f : Nat → Nat) (k : Nat) (a : Attrs) : ℚ :=
  amount (r.rows.filter fun x => decide (f x.index = k ∧ x.attrs = a))

end Toron.Space

/-
What levels and merged relations should be after columns were removed.
-/
import Verif.Model.Legacy.RemoveLinks
import Verif.Spec.Bits

namespace Toron.Legacy

open Toron.Selectors (PyStr)

/-- The columns whose flags are set. -/
def named : List PyStr → (Nat → Bool) → List PyStr
  | [], _ => []
  | c :: cs, f => if f 0 then c :: named cs (fun i => f (i + 1)) else named cs (fun i => f (i + 1))

/-- The columns of a mapping level. -/
def columnsOf (cols : List PyStr) (b : List Byte) : List PyStr := named cols (Spec.bitAt (bytesToBitstream b))

/-- The record that a record is merged into, or itself. -/
def mergedInto (m : List (Nat × Nat)) (i : Nat) : Nat := (m.lookup i).getD i

/-- The levels in a table of relations. -/
def LevelsOf (rels : List Kept) (olds : List (List Byte)) : Prop :=
  olds.Nodup ∧ ∀ b, b ∈ olds ↔ ∃ r ∈ rels, r.level = some b

/-- No level becomes one that is changed later. -/
def NoChain (f : List Byte → List Byte) (olds : List (List Byte)) : Prop := olds.Pairwise fun a b => f a = b → f b = b

/-- The remaining structure has the level: it is not empty and one of the rows has its columns. -/
def Representable (cols drop : List PyStr) (structs : List (List Bool)) (b : List Byte) : Prop :=
  (∃ i, Spec.bitAt (bytesToBitstream (newLevel cols drop b)) i = true) ∧
    ∃ s ∈ structs, ∀ i, Spec.bitAt s i = Spec.bitAt (bytesToBitstream (newLevel cols drop b)) i

end Toron.Legacy

/-
Specification of moving one element of a list.
-/
import Mathlib.Order.Defs.LinearOrder
import Mathlib.Algebra.Order.Ring.Int

namespace Toron.Spec

/-- `out` is `seq` with the first occurrence of `x` moved by `offset` places, at most to the ends; the other
elements keep their order. -/
def Moved {α : Type} (x : α) (offset : Int) (seq out : List α) : Prop :=
  ∃ l r l' r', seq = l ++ x :: r ∧ x ∉ l ∧ out = l' ++ x :: r' ∧ l' ++ r' = l ++ r ∧
    (l'.length : Int) = min (max 0 ((l.length : Int) + offset)) ((seq.length : Int) - 1)

end Toron.Spec

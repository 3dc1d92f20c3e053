/-
The rows of a link before and after columns are added.
-/
import Verif.Spec.ReadLink

namespace Toron.Legacy

open Toron.Selectors (PyStr)

/-- Some of the columns are given and some are not: a level that is stored leaves out one of the `width` columns at least, and
has no other columns. -/
def ProperLevels (width : Nat) (rels : List Kept) : Prop :=
  ∀ m ∈ rels, ∀ b, m.level = some b →
    (∃ i, i < width ∧ ¬ Covers (some b) i) ∧ ∀ i, width ≤ i → ¬ Covers (some b) i

/-- The labels of a row with `k` new columns: if all labels were given, the new labels are `-`; if not, nothing. -/
def withNew (k : Nat) (given : List (Option PyStr)) : List (Option PyStr) :=
  given ++ List.replicate k (if none ∈ given then none else some ['-'])

end Toron.Legacy

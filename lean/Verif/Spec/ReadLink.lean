/-
What the rows of a link say.
-/
import Verif.Model.Legacy.ReadLink
import Verif.Spec.Text

namespace Toron.Legacy

open Toron.Selectors (PyStr)
open Toron.Space (IndexRec)

/-- The level of a relation has column `i`. A relation without a level was given with all columns. -/
def Covers (level : Option (List Byte)) (i : Nat) : Prop :=
  ∀ b, level = some b → Spec.bitAt (bytesToBitstream b) i = true

/-- The labels that were given: those in the columns of the level, and nothing in the other columns. -/
def GivenAs (labels : List PyStr) (level : Option (List Byte)) (given : List (Option PyStr)) : Prop :=
  given.length = labels.length ∧ ∀ (i : Nat) (l : PyStr), labels[i]? = some l →
    (Covers level i → given[i]? = some (some l)) ∧ (¬ Covers level i → given[i]? = some none)

/-- The tables of a link are well-formed: records have different ids and labels, there are no two relations between
the same records, and relations are to existing records. -/
structure WellFormed (index : List IndexRec) (rels : List Kept) : Prop where
  ids : (index.map (·.id)).Nodup
  labels : (index.map (·.labels)).Nodup
  pairs : (rels.map fun m => (m.source, m.index)).Nodup
  refs : ∀ m ∈ rels, ∃ r ∈ index, r.id = m.index

/-- The total of the relations from a record. -/
def totalFrom (rels : List Kept) (j : Nat) : ℚ := ((rels.filter fun m => m.source = j).map (·.value)).sum

end Toron.Legacy

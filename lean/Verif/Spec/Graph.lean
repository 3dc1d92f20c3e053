/-
What the listing and the statistics of a mapping should say.
-/
import Verif.Model.Graph
import Verif.Spec.LinkHash
import Verif.Spec.Store

namespace Toron.Space

/-- The link has a mapping to the record `i`. -/
def Store.mapsToRecord (s : Store) (link : Nat) (i : Nat) : Prop := ∃ m ∈ s.maps, m.link = link ∧ m.index = i

/-- There are exactly `n` things with the property `P`. -/
def Exactly {α : Type} (P : α → Prop) (n : Int) : Prop :=
  ∃ l : List α, l.Nodup ∧ (∀ x, x ∈ l ↔ P x) ∧ n = l.length

/-- The total of rows (record, attributes, value) with the given attributes. -/
def attrsTotal (a : Attrs) (rows : List (Nat × Attrs × ℚ)) : ℚ :=
  ((rows.filter fun x => decide (x.2.1 = a)).map (·.2.2)).sum

end Toron.Space

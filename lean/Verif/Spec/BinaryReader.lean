/-
When a reader computed with floating-point numbers is close to the exact one.
-/
import Verif.Model.Reader
import Verif.Spec.LinkHash
import Verif.Spec.Store

namespace Toron.Space

/-- The same value but for the fraction `ε` of it, or both missing. -/
def CloseValue (ε : ℚ) : Option ℚ → Option ℚ → Prop
  | some v, some f => |f - v| ≤ ε * |v|
  | none, none => True
  | _, _ => False

/-- The reader `f` has the columns and attribute records of `r`, and the same rows in the same order, but for the fraction
`ε` of each value. -/
def Reader.CloseTo (ε : ℚ) (r f : Reader) : Prop :=
  r.keys = f.keys ∧ r.attrData = f.attrData ∧
  List.Forall₂ (fun x y : ReaderRow => x.index = y.index ∧ x.attrs = y.attrs ∧ CloseValue ε x.value y.value) r.rows f.rows

/-- Each proportion is the mapping's share of the values of the mappings with the same link and source record; equal shares
if these are all zero. -/
def Store.Refreshed (s : Store) : Prop :=
  ∀ m ∈ s.maps, m.other ≠ 0 → ∀ p, m.prop = some p →
    p = if ((s.findMaps m.link m.other).map (·.value)).sum = 0 then 1 / ((s.findMaps m.link m.other).length : ℚ)
      else m.value / ((s.findMaps m.link m.other).map (·.value)).sum

/-- What is required of a dataspace that is translated to: its history drops no link after it was reopened and sets no
fingerprint by hand, its proportions are up to date, a source record has at most `n` mappings, and they are to records that
exist. -/
structure Store.GoodTarget (n : ℕ) (t : Store) : Prop where
  tidy : ReachableTidy t
  hashed : ReachableHashed t
  refreshed : t.Refreshed
  few : ∀ l o, (t.findMaps l o).length ≤ n
  refs : ∀ m ∈ t.maps, m.index ∈ t.ids

end Toron.Space

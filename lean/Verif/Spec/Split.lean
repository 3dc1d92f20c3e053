/-
How a stored quantity should be split over the records.
-/
import Verif.Spec.Read
import Verif.Spec.Selectors

namespace Toron.Space

open Toron.Selectors (PyStr Sel CaseMap)
open Toron.Selectors.Spec (Level SpecLE)

/-- The group is complete and the most specific of its selectors that match the attributes has specificity
`sp`. -/
def Store.MatchedAt (s : Store) (cm : CaseMap) (a : Attrs) (g : WGroup) (sp : Toron.Selectors.Specificity) : Prop :=
  g ∈ s.wgroups ∧ g.complete = true ∧ Level cm a g.selectors sp

/-- No other complete group is matched with the same specificity. -/
def Store.AloneAt (s : Store) (cm : CaseMap) (a : Attrs) (g : WGroup) (sp : Toron.Selectors.Specificity) : Prop :=
  s.MatchedAt cm a g sp ∧ ∀ g', s.MatchedAt cm a g' sp → g' = g

/-- The weight group that applies to the attributes: the one matched with the greatest specificity that it does
not share with another, else the default group. -/
def Store.Applies (s : Store) (cm : CaseMap) (a : Attrs) (g : WGroup) : Prop :=
  (∃ sp, s.AloneAt cm a g sp ∧ ∀ g' sp', s.AloneAt cm a g' sp' → SpecLE sp' sp) ∨
    ((∀ g' sp, ¬ s.AloneAt cm a g' sp) ∧ g ∈ s.wgroups ∧ s.defaultWG = some (some g.id))

/-- The weight of a record in a group; 0 if it has none. -/
def Store.weightIn (s : Store) (g : WGroup) (i : Nat) : ℚ :=
  ((s.weights.filter fun w => decide (w.group = g.id ∧ w.index = i)).map (·.value)).sum

/-- The quantity is split over exactly the records that match its location, in proportion to their weights in
the group `g`; if these are all zero, into equal parts, with nothing for the undefined record unless it is the
only one. -/
structure Store.SplitBy (s : Store) (g : WGroup) (b : Share) : Prop where
  once : (b.parts.map (·.1)).Nodup
  records : ∃ l ∈ s.locs, l.id = b.quant.loc ∧
    ∀ i, i ∈ b.parts.map (·.1) ↔ ∃ r ∈ s.index, r.id = i ∧ labelsMatch l.labels r.labels
  sum : (b.parts.map (·.2)).sum = b.quant.value
  proportional : (∃ p ∈ b.parts, s.weightIn g p.1 ≠ 0) → ∀ p ∈ b.parts,
    p.2 = b.quant.value * s.weightIn g p.1 / (b.parts.map fun p' => s.weightIn g p'.1).sum
  equal : (∀ p ∈ b.parts, s.weightIn g p.1 = 0) → ∀ p ∈ b.parts, ∀ p' ∈ b.parts, p.1 ≠ 0 → p'.1 ≠ 0 → p.2 = p'.2
  undefined : (∃ p ∈ b.parts, p.1 ≠ 0) → ∀ x, (0, x) ∈ b.parts → x = 0

/-- The same share with values rounded: the same records, every value changed by less than one, the sum kept,
at most one value that is not whole, and none if the quantity is whole. -/
def Share.RoundedFrom (b exact : Share) : Prop :=
  b.quant = exact.quant ∧ b.attrs = exact.attrs ∧
  (∃ parts, parts.Perm exact.parts ∧ List.Forall₂ (fun p o => p.1 = o.1 ∧ |o.2 - p.2| < 1) parts b.parts) ∧
  (b.parts.map (·.2)).sum = b.quant.value ∧
  (b.parts.filter fun p => decide (p.2.den ≠ 1)).length ≤ 1 ∧
  (b.quant.value.den = 1 → ∀ p ∈ b.parts, p.2.den = 1)

/-- The share is the quantity split by the group that applies to its attributes, rounded if asked for. -/
def Store.Split (s : Store) (cm : CaseMap) (quantize : Bool) (b : Share) : Prop :=
  ∃ g, s.Applies cm b.attrs g ∧
    if quantize then ∃ exact : Share, s.SplitBy g exact ∧ b.RoundedFrom exact else s.SplitBy g b

/-- The whole quantity is given to one record, one of those that match its location. -/
def Store.GivenToOne (s : Store) (b : Share) : Prop :=
  ∃ i, b.parts = [(i, b.quant.value)] ∧ ∃ l ∈ s.locs, l.id = b.quant.loc ∧
    ∃ r ∈ s.index, r.id = i ∧ labelsMatch l.labels r.labels

/-- The stored granularity of the valid combination that the location of the quantity has labels in is the
greatest of all. -/
def Store.AtFinest (s : Store) (q : Quant) : Prop :=
  ∃ l ∈ s.locs, l.id = q.loc ∧ ∃ st ∈ s.structs, st.bits = (l.labels.map fun x => !x.isEmpty) ∧
    ∀ st' ∈ s.structs, granGe st.gran st'.gran = true

end Toron.Space

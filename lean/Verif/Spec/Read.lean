/-
What reading a dataspace should give.
-/
import Verif.Model.Store.Read
import Verif.Spec.Store
import Verif.Spec.Sums

namespace Toron.Space

open Toron.Selectors (PyStr Sel CaseMap)

/-- The labels of a location match those of a record: where the location has a label, the record has the
same one. -/
def labelsMatch (loc rec : List PyStr) : Prop := List.Forall₂ (fun l r => l = [] ∨ r = l) loc rec

/-- The location of the quantity has labels in exactly the columns of a valid combination. -/
def Store.Counted (s : Store) (q : Quant) : Prop :=
  ∃ l ∈ s.locs, l.id = q.loc ∧ ∃ st ∈ s.structs, st.bits = l.labels.map fun x => !x.isEmpty

/-- The attributes of the quantity match one of the selectors (or there are none). -/
def Store.Selected (s : Store) (cm : CaseMap) (selectors : List Sel) (q : Quant) : Prop :=
  selectors = [] ∨ ∃ g ∈ s.agroups, g.id = q.ag ∧ Sel.evalAny cm g.attrs selectors = .ok true

/-- The part lies between nothing and the whole: it has the sign of the whole and is not larger. -/
def PartOf (x whole : ℚ) : Prop := (0 ≤ whole → 0 ≤ x ∧ x ≤ whole) ∧ (whole ≤ 0 → whole ≤ x ∧ x ≤ 0)

/-- The rows a stored quantity is split into: its attributes, and records with values. -/
structure Share where
  quant : Quant
  attrs : Attrs
  parts : List (Nat × ℚ)

/-- The rows of a share. -/
def Share.rows (b : Share) : List (Nat × Attrs × ℚ) := b.parts.map fun p => (p.1, b.attrs, p.2)

/-- The share is a fair account of its quantity: at least one record, no record twice, only records that match
its location, values adding up to the quantity and lying between nothing and the quantity, and its attributes
together with the domain. -/
structure Store.Accounts (s : Store) (b : Share) : Prop where
  nonempty : b.parts ≠ []
  once : (b.parts.map (·.1)).Nodup
  matching : ∃ l ∈ s.locs, l.id = b.quant.loc ∧
    ∀ p ∈ b.parts, ∃ r ∈ s.index, r.id = p.1 ∧ labelsMatch l.labels r.labels
  sum : (b.parts.map (·.2)).sum = b.quant.value
  within : ∀ p ∈ b.parts, PartOf p.2 b.quant.value
  attrs : ∃ g ∈ s.agroups, g.id = b.quant.ag ∧ ∀ k v, (k, v) ∈ b.attrs ↔
    if s.domain.getD [] = [] then (k, v) ∈ g.attrs
    else if k = "domain".toList then v = s.domain.getD [] else (k, v) ∈ g.attrs

end Toron.Space

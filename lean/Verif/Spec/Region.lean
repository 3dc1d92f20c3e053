/-
Regions: sets of records given by labels, and quantities stored for locations inside or outside of them.
-/
import Verif.Spec.Read
import Verif.Spec.Reader

namespace Toron.Space

open Toron.Selectors (PyStr Sel CaseMap)

/-- The record belongs to the region: where the region has a label, the record has the same one. -/
def Store.InRegion (s : Store) (region : List PyStr) (i : Nat) : Prop :=
  ∃ r ∈ s.index, r.id = i ∧ labelsMatch region r.labels

/-- The quantity is stored for a location inside the region: where the region has a label, the location has the
same one. -/
def Store.Inside (s : Store) (region : List PyStr) (q : Quant) : Prop :=
  ∃ l ∈ s.locs, l.id = q.loc ∧ labelsMatch region l.labels

/-- The quantity is stored for a location outside the region: in some column both have a label, and these are
different. -/
def Store.Outside (s : Store) (region : List PyStr) (q : Quant) : Prop :=
  ∃ l ∈ s.locs, l.id = q.loc ∧
    ∃ (k : Nat) (a b : PyStr), region[k]? = some a ∧ l.labels[k]? = some b ∧ a ≠ [] ∧ b ≠ [] ∧ a ≠ b

/-- The attributes of the quantity, together with the domain, satisfy the condition. -/
def Store.AttrsSat (s : Store) (P : Attrs → Prop) (q : Quant) : Prop :=
  ∃ g ∈ s.agroups, g.id = q.ag ∧ P (s.withDomain g.attrs)

open Classical in
/-- The sum of the stored quantities that are in a valid combination, are selected, and satisfy the condition. -/
noncomputable def Store.stored (s : Store) (cm : CaseMap) (sels : List Sel) (Q : Quant → Prop) : ℚ :=
  ((s.quants.filter fun q => s.Counted q ∧ s.Selected cm sels q ∧ Q q).map (·.value)).sum

open Classical in
/-- The sum of the values that are read for records and attributes that satisfy the condition. -/
noncomputable def readSum (rows : List (Nat × Attrs × ℚ)) (F : Nat → Attrs → Prop) : ℚ :=
  ((rows.filter fun r => F r.1 r.2.1).map (·.2.2)).sum

open Classical in
/-- The sum of the values of a result for records and attributes that satisfy the condition. -/
noncomputable def Reader.readSum (r : Reader) (F : Nat → Attrs → Prop) : ℚ :=
  amount (r.rows.filter fun x => F x.index x.attrs)

/-- The condition does not depend on the order of the attributes. -/
def OrderFree (P : Attrs → Prop) : Prop := ∀ a b : Attrs, (∀ kv, kv ∈ a ↔ kv ∈ b) → (P a ↔ P b)

end Toron.Space

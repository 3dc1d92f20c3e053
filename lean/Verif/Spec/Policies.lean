/-
What the conflict policies should do, for one cell of a table and the values loaded into it in turn.
-/
import Verif.Model.Store.Service
import Verif.Model.Store.Space
import Verif.Spec.Read

namespace Toron.Space

open Toron.Selectors (PyStr)

/-- The content of a cell (`none`: nothing stored) after loading `new`, one value after the other. -/
def Policy.after (p : Policy) (old : Option ℚ) (new : List ℚ) : Option ℚ :=
  match p with
  | .sum => if old = none ∧ new = [] then none else some (old.getD 0 + new.sum)
  | .replace => if h : new = [] then old else some (new.getLast h)
  | _ => match old with
    | some x => some x
    | none => new.head?

/-- Whether loading is allowed: `abort` allows no second value for a cell. -/
def Policy.Allows (p : Policy) (old : Option ℚ) (new : List ℚ) : Prop :=
  p = .abort → (old.toList ++ new).length ≤ 1

/-- The weight stored for the index record `i` in the group of that name. -/
def Store.HasWeight (s : Store) (name : PyStr) (i : Nat) (x : ℚ) : Prop :=
  ∃ g ∈ s.wgroups, g.name = name ∧ ∃ w ∈ s.weights, w.group = g.id ∧ w.index = i ∧ w.value = x

/-- The same as an optional value. -/
def Store.WeightIs (s : Store) (name : PyStr) (i : Nat) (v : Option ℚ) : Prop :=
  ∀ x, v = some x ↔ s.HasWeight name i x

/-- The values that rows of weight data give for the index record `i`: the rows that have its labels and its id or
no id, and a number. -/
def Store.weightsFor (s : Store) (rows : List WeightRow) (i : Nat) : List ℚ :=
  (rows.filter fun row => decide ((⟨i, row.labels⟩ : IndexRec) ∈ s.index ∧ i ≠ 0 ∧
    (row.idv = none ∨ row.idv = some i))).filterMap (·.value)

/-- The quantity stored for the labels and the attribute set. -/
def Store.HasQuantity (s : Store) (labels : List PyStr) (attrs : Attrs) (x : ℚ) : Prop :=
  ∃ q ∈ s.quants, (∃ l ∈ s.locs, l.id = q.loc ∧ l.labels = labels) ∧
    (∃ g ∈ s.agroups, g.id = q.ag ∧ g.attrs = attrs) ∧ q.value = x

/-- The same as an optional value. -/
def Store.QuantityIs (s : Store) (labels : List PyStr) (attrs : Attrs) (v : Option ℚ) : Prop :=
  ∀ x, v = some x ↔ s.HasQuantity labels attrs x

/-- The attribute set of a row of quantities: the registered attributes with a non-empty cell, in key order. -/
def Store.rowAttrs (s : Store) (row : QuantRow) : Attrs :=
  canonAttrs (row.pick (s.regAttrs.getD []))

/-- A row of quantities can be loaded: its domain is that of the dataspace, and if it has attributes, it has a label
for every column, the columns with a label are a valid combination (unless `allowPartition`), and its labels match
an index record (unless `allowLabel`). -/
def Store.Accepts (s : Store) (allowLabel allowPartition : Bool) (row : QuantRow) : Prop :=
  (row.domain = none ∨ row.domain = some s.getDomain) ∧
  (s.rowAttrs row = [] ∨ (row.labels.length = s.cols.length ∧ s.cols ≠ [] ∧
    (allowPartition = true ∨ ∃ st ∈ s.structs, st.bits = row.labels.map fun x => !x.isEmpty) ∧
    (allowLabel = true ∨ ∃ r ∈ s.index, labelsMatch row.labels r.labels)))

/-- The values that rows of quantities give for the labels and the attribute set. Rows without attributes count
for nothing. -/
def Store.quantitiesFor (s : Store) (rows : List QuantRow) (labels : List PyStr) (attrs : Attrs) : List ℚ :=
  (rows.filter fun row => decide (row.labels = labels ∧ s.rowAttrs row = attrs ∧ attrs ≠ [])).map (·.value)

/-- The sum of the rows that have attributes. -/
def Store.loadedTotal (s : Store) (rows : List QuantRow) : ℚ :=
  ((rows.filter fun row => decide (s.rowAttrs row ≠ [])).map (·.value)).sum

/-- Every quantity has its location and its attribute group. -/
def Store.Anchored (s : Store) : Prop :=
  ∀ q ∈ s.quants, (∃ l ∈ s.locs, l.id = q.loc) ∧ ∃ g ∈ s.agroups, g.id = q.ag

end Toron.Space

/-
What it means that the quantities of two dataspaces are put together in a third one.
-/
import Verif.Spec.SameContent

namespace Toron.Space

open Toron.Selectors (PyStr Sel CaseMap)

/-- Two dataspaces agree in everything that matters for reading, except the quantities: the same columns, index
records, valid combinations, weight groups (with the same default) and domain, and the same weights. -/
structure SameSetting (s t : Store) : Prop where
  columns : t.cols = s.cols
  records : t.index = s.index
  combinations : t.structs = s.structs
  groups : t.wgroups = s.wgroups
  dflt : t.defaultWG = s.defaultWG
  domain : t.domain = s.domain
  weights : ∀ name i x, t.HasWeight name i x ↔ s.HasWeight name i x

/-- The amount stored for the labels and the attributes; zero if there is none. -/
def Store.AmountIs (s : Store) (labels : List PyStr) (attrs : Attrs) (x : ℚ) : Prop :=
  s.HasQuantity labels attrs x ∨ (x = 0 ∧ ∀ y, ¬ s.HasQuantity labels attrs y)

/-- The amounts in `u` are those of `s` and `t` added. -/
def Adds (s t u : Store) : Prop := ∀ labels attrs x y z, s.AmountIs labels attrs x → t.AmountIs labels attrs y →
  u.AmountIs labels attrs z → z = x + y

/-- The quantities in `u` are those of `s` and those of `t`, which have no target in common. -/
structure Unites (s t u : Store) : Prop where
  either : ∀ labels attrs x, u.HasQuantity labels attrs x ↔ s.HasQuantity labels attrs x ∨ t.HasQuantity labels attrs x
  apart : ∀ labels attrs x y, s.HasQuantity labels attrs x → ¬ t.HasQuantity labels attrs y

/-- The sum of the amounts of those rows of a result whose record and attributes satisfy a condition. -/
def Reader.sumOf (r : Reader) (P : Nat → Attrs → Bool) : ℚ :=
  ((r.rows.filter fun x => P x.index x.attrs).map fun x => x.value.getD 0).sum

/-- The rows of a result whose attributes satisfy a condition. -/
def Reader.only (r : Reader) (P : Attrs → Bool) : Reader :=
  { r with rows := r.rows.filter fun x => P x.attrs, attrData := r.attrData.filter P }

/-- The attributes match one of the selectors. -/
def selected (cm : CaseMap) (sels : List Sel) (a : Attrs) : Bool :=
  match Sel.evalAny cm a sels with
  | .ok b => b
  | .error _ => false

/-- The rows of two results together. -/
structure Reader.Together (r r' both : Reader) : Prop where
  rows : both.rows.Perm (r.rows ++ r'.rows)
  attrs : ∀ a, a ∈ both.attrData ↔ a ∈ r.attrData ∨ a ∈ r'.attrData

end Toron.Space

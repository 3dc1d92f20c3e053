/-
What a reader should contain after a translation, and what it should show.
-/
import Verif.Model.Reader
import Verif.Spec.Store
import Verif.Spec.Proportions
import Verif.Spec.Selectors

namespace Toron.Space

open Toron.Selectors (PyStr Sel CaseMap)
open Toron.Selectors.Spec (UniqueAt SpecLE)

/-- The values of the rows, added up (NULL counts as nothing). -/
def amount (rows : List ReaderRow) : ℚ := (rows.map fun x => x.value.getD 0).sum

/-- The total for an attribute set. -/
def Reader.total (r : Reader) (a : Attrs) : ℚ := amount (r.rows.filter fun x => decide (x.attrs = a))

/-- The total for a record and an attribute set. -/
def Reader.amountAt (r : Reader) (i : Nat) (a : Attrs) : ℚ :=
  amount (r.rows.filter fun x => decide (x.index = i ∧ x.attrs = a))

/-- The tables of a reader fit together: attribute sets are sorted by key, each is listed once, every row
has one of them, and all their keys have a column. -/
structure Reader.Ok (r : Reader) : Prop where
  known : ∀ x ∈ r.rows, x.attrs ∈ r.attrData
  once : r.attrData.Nodup
  sorted : ∀ a ∈ r.attrData, canonAttrs a = a
  cols : ∀ a ∈ r.attrData, ∀ kv ∈ a, kv.1 ∈ r.keys

/-- The attribute sets are dictionaries: no key occurs twice. -/
def Reader.Dicts (r : Reader) : Prop := ∀ a ∈ r.attrData, (a.map (·.1)).Nodup

/-- `h` lists the ids of the dataspace's records in ascending order. -/
def Store.listsIds (s : Store) (h : List Int) : Prop :=
  h.Pairwise (· < ·) ∧ ∀ o, o ∈ h ↔ ∃ i ∈ s.ids, o = (i : Int)

/-- A link that was made for the records the source has now. -/
def Store.currentLink (trg src : Store) (l : Link) : Prop :=
  l ∈ findLinksByRef trg.links src.uid ∧ ∃ h, l.otherHash = some h ∧ src.listsIds h

/-- How a row is split by a link: a row of the undefined record stays, the others get one row per mapping with
the value times the proportion (to within less than one if the values are to be whole numbers). -/
def Store.splitBy (trg : Store) (link : Nat) (quantize : Bool) (row : ReaderRow) (parts : List ReaderRow) : Prop :=
  if row.index = 0 then parts = [row]
  else ∃ ms, ms.Perm (trg.mapsFrom link row.index) ∧ ms ≠ [] ∧
    List.Forall₂ (fun m p => p.index = m.index ∧ p.attrs = row.attrs ∧
      ∃ v q w, row.value = some v ∧ m.prop = some q ∧ p.value = some w ∧
        if quantize then |w - v * q| < 1 else w = v * q) ms parts

/-- The link to be used for an attribute set: among the current links that reach all records and have
selectors, the one whose matching selectors are uniquely most specific; if there is none, the default. -/
def Store.linkFor (trg src : Store) (cm : CaseMap) (a : Attrs) (l : Link) : Prop :=
  trg.currentLink src l ∧
  ∃ dict : List (Nat × Option (List Sel)),
    (∀ k sels, (k, sels) ∈ dict ↔ ∃ x, trg.currentLink src x ∧ x.complete = true ∧ x.selectors ≠ [] ∧
      k = x.id ∧ sels = some x.selectors) ∧
    ((∃ sp, UniqueAt cm a dict l.id sp ∧ ∀ k' sp', UniqueAt cm a dict k' sp' → SpecLE sp' sp) ∨
      ((∀ k sp, ¬ UniqueAt cm a dict k sp) ∧ l.isDefault = true))

/-- The values of an attribute set in the columns (empty if there is none). -/
def valuesIn (columns : List PyStr) (a : Attrs) : List PyStr :=
  columns.map fun c => match attrGet a c with
    | some v => v
    | none => []

/-- The row has a non-empty value in one of the columns. -/
def hasPivot (columns : List PyStr) (x : ReaderRow) : Prop := ∃ v ∈ valuesIn columns x.attrs, v ≠ []

instance (columns : List PyStr) (x : ReaderRow) : Decidable (hasPivot columns x) := by
  unfold hasPivot; infer_instance

/-- The rows of a pivoted cell: the record, and the values in the pivoted columns. -/
def Reader.cell (r : Reader) (columns : List PyStr) (i : Nat) (c : List PyStr) : List ReaderRow :=
  r.rows.filter fun x => decide (x.index = i ∧ valuesIn columns x.attrs = c)

end Toron.Space

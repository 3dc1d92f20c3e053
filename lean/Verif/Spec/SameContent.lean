/-
What it means that two dataspaces hold the same data, and that two results of reading are the same.
-/
import Verif.Spec.Policies
import Verif.Spec.Selectors
import Verif.Model.Reader

namespace Toron.Space

open Toron.Selectors (PyStr Sel)

/-- Two dataspaces hold the same data as far as reading is concerned: the same columns, index records, valid
combinations, weight groups (with the same default) and domain, the same weight for every record in every group, and
the same quantities for the same labels and attributes. Nothing is said about the order in which weights and
quantities are stored, about their ids, about unused locations and attribute groups, and about links, mappings,
registered attributes, display order and fingerprints. -/
structure SameContent (s t : Store) : Prop where
  columns : t.cols = s.cols
  records : t.index = s.index
  combinations : t.structs = s.structs
  groups : t.wgroups = s.wgroups
  dflt : t.defaultWG = s.defaultWG
  domain : t.domain = s.domain
  weights : ∀ name i x, t.HasWeight name i x ↔ s.HasWeight name i x
  quantities : ∀ labels attrs x, t.HasQuantity labels attrs x ↔ s.HasQuantity labels attrs x

/-- Two results that may be failures: both fail, or both succeed with results that are related. -/
inductive BothOr {α : Type} (R : α → α → Prop) : Except Err α → Except Err α → Prop
  | ok {a b : α} (h : R a b) : BothOr R (.ok a) (.ok b)
  | error (e e' : Err) : BothOr R (.error e) (.error e')

/-- Two results of reading are the same up to the order of rows. -/
structure Reader.Same (r r' : Reader) : Prop where
  rows : r'.rows.Perm r.rows
  keys : r'.keys = r.keys
  attrs : ∀ a, a ∈ r'.attrData ↔ a ∈ r.attrData

/-- Every quantity has its attribute group. -/
def Store.Grouped (s : Store) : Prop := ∀ q ∈ s.quants, ∃ g ∈ s.agroups, g.id = q.ag

/-- All selectors of the weight groups can be evaluated (they come from texts). -/
def Store.SelectorsWF (s : Store) : Prop := ∀ g ∈ s.wgroups, ∀ x ∈ g.selectors, x.WF

end Toron.Space

/-
What opening an older file must keep, and what a file of schema 0.2.0 may contain.
-/
import Verif.Model.Migrate

namespace Toron.Migrate.Spec

open Toron.Selectors (PyStr)
open Toron.Space

/-- The total stored for a location and an attribute group in an old file. -/
def oldTotal (qs : List OldQuant) (loc ag : Nat) : ℚ :=
  ((qs.filter fun q => q.loc = some loc ∧ q.ag = some ag).map (·.value.amount)).sum

/-- The total stored for a location and an attribute group in a current file. -/
def newTotal (qs : List Quant) (loc ag : Nat) : ℚ :=
  ((qs.filter fun q => q.loc = loc ∧ q.ag = ag).map (·.value)).sum

/-- A row of an old file that maps nothing to nothing: from the undefined record to the undefined record
or to no record at all. -/
def MapsNothing (r : OldRel) : Prop := r.other = 0 ∧ (r.index = some 0 ∨ r.index = none)

instance (r : OldRel) : Decidable (MapsNothing r) := by unfold MapsNothing; infer_instance

/-- A mapping of a current file, as a row of an old one. -/
def asOld (m : Mapping) : OldRel := ⟨m.id, some m.link, m.other, some m.index, some m.level, m.value, m.prop⟩

/-- An old row whose missing level is filled in. -/
def filled (level : List Byte) (r : OldRel) : OldRel := { r with level := some (r.level.getD level) }

/-- What no migration changes: weights, attributes, the fingerprint and the properties that have the
same meaning in all versions. -/
structure SameRest (d d' : FileDb) : Prop where
  wgroups : d'.wgroups = d.wgroups
  weights : d'.weights = d.weights
  agroups : d'.agroups = d.agroups
  indexHash : d'.indexHash = d.indexHash
  display : d'.display = d.display
  defaultWG : d'.defaultWG = d.defaultWG
  uid : d'.uid = d.uid

/-- A list of texts in dictionary order, each one once. -/
def SortedOnce (l : List PyStr) : Prop := l.Pairwise fun x y => x.map Char.toNat < y.map Char.toNat

/-- The rows of an old file obey its schema and refer to existing rows, and the file has only the tables
and properties of schema 0.2.0. -/
structure Conforming (d : FileDb) (t : Labels) (links : List Link) (rels : List OldRel)
    (quants : List OldQuant) : Prop where
  version : d.version = some .v020
  hasLabels : d.nodeIndex = some t ∧ d.labelIndex = none
  hasLinks : d.crosswalk = some links ∧ d.newLink = none ∧ d.link = none
  hasRels : d.relation = some rels ∧ d.newMapping = none ∧ d.mapping = none
  hasQuants : d.oldQuantity = some quants ∧ d.newQuantity = none ∧ d.quantity = none
  domain : ∀ s, d.domain ≠ some (.str s)
  keys : d.regAttrs = none ∧ d.partDefs = none ∧ d.userProps = none ∧ d.created = none
  linkIds : (links.map (·.id)).Nodup
  linkNames : (links.map fun l => (l.name, l.other)).Nodup
  linkDefaults : ((links.filter (·.isDefault)).map (·.other)).Nodup
  relIds : (rels.map (·.id)).Nodup
  relPairs : (rels.map fun r => (r.link, r.other, r.index)).Nodup
  relValue : ∀ r ∈ rels, 0 ≤ r.value
  relProp : ∀ r ∈ rels, ∀ p, r.prop = some p → 0 ≤ p ∧ p ≤ 1
  relRefs : ∀ r ∈ rels, ∃ l ∈ links, ∃ i ∈ t.index, r.link = some l.id ∧ r.index = some i.id
  quantRefs : ∀ q ∈ quants, ∃ l ∈ t.locs, ∃ a ∈ d.agroups, q.loc = some l.id ∧ q.ag = some a.id
  weightRefs : ∀ w ∈ d.weights, (∃ g ∈ d.wgroups, g.id = w.group) ∧ ∃ i ∈ t.index, i.id = w.index
  labelsOnce : t.cols ≠ [] → (t.index.map (·.labels)).Nodup ∧ (t.locs.map (·.labels)).Nodup ∧
    (t.structs.map (·.bits)).Nodup

end Toron.Migrate.Spec

/-
Which parts of a dataspace each operation may change: the reader's table of what is related to
what. Everything that is not in the list of an operation is unrelated to it.
-/
import Verif.Model.Store.Ops

namespace Toron.Space

open Toron.Selectors (PyStr Sel)

/-- The parts of a dataspace. -/
inductive Part where
  | columns | records | labels | fingerprint | partitions
  | groups | groupState | weights | defaultGroup
  | links | linkState | mappings
  | quantities | locations | attributes
  | display | domain | identity
  deriving DecidableEq, Repr

/-- A part is the same in two dataspaces. The state of a weight group is whether it is complete; the
state of a link is whether it is complete and the fingerprint of its source. -/
def SamePart : Part → Store → Store → Prop
  | .columns, s, t => t.cols = s.cols
  | .records, s, t => t.index.map (·.id) = s.index.map (·.id)
  | .labels, s, t => t.index = s.index
  | .fingerprint, s, t => t.indexHash = s.indexHash
  | .partitions, s, t => t.structs = s.structs ∧ t.partDefs = s.partDefs
  | .groups, s, t => t.wgroups.map (fun g => (g.id, g.name, g.selectors)) =
      s.wgroups.map fun g => (g.id, g.name, g.selectors)
  | .groupState, s, t => t.wgroups.map (fun g => (g.id, g.complete)) =
      s.wgroups.map fun g => (g.id, g.complete)
  | .weights, s, t => t.weights = s.weights
  | .defaultGroup, s, t => t.defaultWG = s.defaultWG
  | .links, s, t => t.links.map (fun l => (l.id, l.other, l.hint, l.name, l.selectors, l.isDefault)) =
      s.links.map fun l => (l.id, l.other, l.hint, l.name, l.selectors, l.isDefault)
  | .linkState, s, t => t.links.map (fun l => (l.id, l.otherHash, l.complete)) =
      s.links.map fun l => (l.id, l.otherHash, l.complete)
  | .mappings, s, t => t.maps = s.maps
  | .quantities, s, t => t.quants = s.quants ∧ t.agroups = s.agroups
  | .locations, s, t => t.locs = s.locs
  | .attributes, s, t => t.regAttrs = s.regAttrs
  | .display, s, t => t.display = s.display
  | .domain, s, t => t.domain = s.domain
  | .identity, s, t => t.uid = s.uid

/-- What each operation may change. -/
def Op.may : Op → List Part
  | .addIndexColumns _ => [.columns, .labels, .partitions, .locations]
  | .renameIndexColumns _ => [.columns, .partitions]
  | .dropIndexColumns _ => [.columns, .labels, .partitions, .locations]
  | .addPartitionDefs _ | .addPartitionDef _ | .dropPartitionDefs _ => [.partitions]
  | .setRegisteredAttributes _ | .changeAttributeOrder .. => [.attributes]
  | .changeLabelOrder .. => [.display]
  | .setDomain _ => [.domain]
  | .insertIndex .. =>
    [.records, .labels, .fingerprint, .partitions, .weights, .groupState, .linkState]
  | .updateIndex .. | .deleteIndex _ =>
    [.records, .labels, .fingerprint, .partitions, .weights, .groupState, .mappings, .linkState]
  | .setDefaultWeightGroup _ => [.defaultGroup]
  | .addWeightGroup .. => [.groups, .groupState, .defaultGroup]
  | .editWeightGroup .. => [.groups, .groupState]
  | .dropWeightGroup _ => [.groups, .groupState, .weights, .defaultGroup]
  | .insertWeights .. => [.weights, .groups, .groupState]
  | .updateWeights .. | .deleteWeights .. => [.weights, .groupState]
  | .addLink .. => [.links, .linkState]
  | .editLink .. => [.links, .linkState]
  | .dropLink .. => [.links, .linkState, .mappings]
  | .insertMappings2 .. | .insertMappings .. | .updateMappings .. | .deleteMappings .. =>
    [.mappings, .linkState]
  | .reifyMappings .. => [.mappings]
  | .insertQuantities2 .. | .insertQuantities .. | .deleteQuantitiesWithoutIndex
  | .deleteUnmatchedQuantities => [.quantities, .locations]
  | .reopen => []

end Toron.Space

/-
What it means that a weight group or a link is complete.
-/
import Verif.Model.Store.Ops

namespace Toron.Space

/-- Every record other than the undefined one has a weight in the group. -/
def Store.groupCovers (s : Store) (group : Nat) : Prop :=
  ∀ r ∈ s.index, r.id ≠ 0 → ∃ w ∈ s.weights, w.group = group ∧ w.index = r.id

/-- Every record other than the undefined one is the target of a mapping of the link. -/
def Store.linkReaches (s : Store) (link : Nat) : Prop :=
  ∀ r ∈ s.index, r.id ≠ 0 → ∃ m ∈ s.maps, m.link = link ∧ m.index = r.id

/-- The call sets a completeness flag to true itself (an argument of `add_weight_group`,
`edit_weight_group`, `add_link` or `edit_link`). -/
def Op.setsFlag : Op → Bool
  | .addWeightGroup _ _ c _ => c
  | .editWeightGroup _ _ _ c => c == some true
  | .addLink _ _ _ _ _ _ c => c
  | .editLink _ _ c => c.complete == some true
  | _ => false

/-- The dataspaces that can be made without such calls. -/
def ReachableUnflagged (s : Store) : Prop :=
  ∃ uid ops, (∀ op ∈ ops, op.setsFlag = false) ∧ s = run ops (Store.new uid)

end Toron.Space

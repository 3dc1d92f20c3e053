/-
The fingerprint recorded in a link, and what it should say.
-/
import Verif.Model.Store.Ops

namespace Toron.Space

/-- The link has a mapping from the source record `o`. -/
def Store.mapsFromSource (s : Store) (link : Nat) (o : Int) : Prop :=
  ∃ m ∈ s.maps, m.link = link ∧ m.other = o

/-- `ids` are the source records covered by the link: in ascending order, the undefined record and every
other record with a mapping. -/
def Store.coveredIds (s : Store) (link : Nat) (ids : List Int) : Prop :=
  ids.Pairwise (· < ·) ∧ ∀ o, o ∈ ids ↔ o = 0 ∨ 0 < o ∧ s.mapsFromSource link o

/-- The call sets the fingerprint of a link itself (an argument of `add_link` or `edit_link`). -/
def Op.setsHash : Op → Bool
  | .addLink _ _ _ _ _ h _ => h.isSome
  | .editLink _ _ c => c.otherHash.isSome
  | _ => false

/-- The dataspaces that can be made without setting fingerprints by hand. -/
def ReachableHashed (s : Store) : Prop :=
  ∃ uid ops, (∀ op ∈ ops, op.setsHash = false) ∧ s = run ops (Store.new uid)

end Toron.Space

/-
What the report about weights should say.
-/
import Verif.Model.Store.UsedWeights
import Verif.Spec.Split

namespace Toron.Selectors

mutual
/-- The names of the attributes a selector refers to. -/
def Sel.names : Sel → List PyStr
  | .simple k _ _ _ => [k]
  | .any l => Sel.namesL l
  | .neg l => Sel.namesL l
  | .whr l => Sel.namesL l
  | .compound l => Sel.namesL l
  | .loop => []

/-- The names of the attributes that selectors refer to. -/
def Sel.namesL : List Sel → List PyStr
  | [] => []
  | s :: ss => Sel.names s ++ Sel.namesL ss
end

end Toron.Selectors

namespace Toron.Space

open Toron.Selectors (PyStr Sel CaseMap)

/-- The report says that the weight group of this name is used for these attributes. -/
def Says (report : List (PyStr × List Attrs)) (name : PyStr) (a : Attrs) : Prop := ∃ e ∈ report, e.1 = name ∧ a ∈ e.2

/-- No selector of a weight group refers to the attribute `domain`, or the dataspace has no domain. -/
def Store.DomainUnused (s : Store) : Prop :=
  s.domain.getD [] = [] ∨ ∀ g ∈ s.wgroups, ∀ x ∈ g.selectors, "domain".toList ∉ x.names

/-- The share is the quantity split by the group of this name, rounded if asked for. -/
def Store.SplitByName (s : Store) (name : PyStr) (quantize : Bool) (b : Share) : Prop :=
  ∃ g ∈ s.wgroups, g.name = name ∧
    if quantize then ∃ exact : Share, s.SplitBy g exact ∧ b.RoundedFrom exact else s.SplitBy g b

end Toron.Space
